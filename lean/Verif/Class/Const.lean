import Verif.Class.Cache
/-! # Constants and their cache

Model of `vm/executor/constants.rs` and `globals/constants.rs`.  Constants that load a file (`ConstEntry::Autoload`) are
outside the model. -/
namespace Verif.Class

/-- `ClassInfo::get_mut_const` (value/class.rs:609-611). -/
def ownConst (h : Heap) (c : Addr) (id : Id) : Option Val := (h.ext (h.info c).ext).consts id

/-- The loop of `VM::get_super_const` (vm/executor/constants.rs:10-32).  The inner answer `none` is the exception
"uninitialized constant". -/
def superConst (h : Heap) (isModule : Bool) (id : Id) : Nat → Addr → Option (Option Val)
  | 0, _ => none
  | n + 1, c =>
    match ownConst h c id with
    | some v => some (some v)
    | none =>
      match upper n h c with
      | none => none
      | some (some u) => superConst h isModule id n u
      | some none => if isModule then some (ownConst h objectC id) else some none

/-- `VM::get_lexical_const` (vm/executor/constants.rs:72-82): the innermost of the enclosing classes, which is the last
of the list, comes first. -/
def lexicalConst (h : Heap) (scopes : List Addr) (id : Id) : Option Val := scopes.reverse.findSome? (ownConst h · id)

/-- `VM::find_const` (vm/executor/constants.rs:48-57): `c` is the class of `self`, singleton classes skipped. -/
def findConst (n : Nat) (h : Heap) (scopes : List Addr) (c : Addr) (id : Id) : Option (Option Val) :=
  match lexicalConst h scopes id with
  | some v => some (some v)
  | none => superConst h (h.info c).isModule id n c

/-- `VM::get_scope` (vm/executor/constants.rs:62-67), the instruction `GET_SCOPE` (vm/executor/opt_core.rs:312-317). -/
def getScope (h : Heap) (c : Addr) (id : Id) : Option Val := ownConst h c id

/-- The class graph with the cache for constants (`ConstCache`, globals/constants.rs:100-160). -/
structure CVM where
  heap : Heap := boot
  version : BitVec 32 := 0
  cache : Nat → BitVec 32 × Option Val := fun _ => (0, none)

/-- What a program does. -/
inductive COp
  | cmd (c : Cmd)
  /-- the instruction `GET_CONST` with this cache entry, inside these classes, with a `self` of class `c` -/
  | get (slot : Nat) (id : Id) (scopes : List Addr) (c : Addr)

/-- `Globals::set_const` advances the version (globals/constants.rs:18-27); nothing else here does. -/
def Cmd.sets : Cmd → Bool
  | .setc _ _ _ => true
  | _ => false

/-- `GET_CONST` (vm/executor/opt_core.rs:283-295) with `find_const_cache` and `set_const_cache`
(globals/constants.rs:30-55, 75-78). -/
def cexec (n : Nat) (s : CVM) : COp → Option (CVM × Option Val)
  | .cmd c =>
    match c.run n s.heap with
    | none => none
    | some h => some ({ s with heap := h, version := if c.sets then s.version + 1 else s.version }, none)
  | .get slot id scopes c =>
    if s.heap.realB c && scopes.all s.heap.realB then
      let search := match findConst n s.heap scopes c id with
        | none => none
        | some none => some (s, none)
        | some (some v) => some ({ s with cache := upd s.cache slot (s.version, some v) }, some v)
      match s.cache slot with
      | (ver, some v) => if ver = s.version then some (s, some v) else search
      | (_, none) => search
    else none

def cexecAll (n : Nat) : CVM → List COp → Option CVM
  | s, [] => some s
  | s, o :: os => match cexec n s o with
    | none => none
    | some (s', _) => cexecAll n s' os

def setCount : List COp → Nat
  | [] => 0
  | .cmd c :: os => (if c.sets then 1 else 0) + setCount os
  | _ :: os => setCount os

/-! ## What the search finds -/

/-- First own constant along a list of addresses. -/
def constIn (h : Heap) (id : Id) (l : List Addr) : Option Val := l.findSome? (ownConst h · id)

theorem superConst_spec {h : Heap} {b : Bool} {id : Id} (hb : b = false) : ∀ {n c l}, Seg h (h.info c).upper l none → l.length + 1 < n →
    superConst h b id n c = some (constIn h id (c :: l.filter (vis h)))
  | n + 1, c, l, s, hn => by
    rcases hm : ownConst h c id with _ | f
    · rcases upper_cases s (show l.length < n by omega) with ⟨a, b'⟩ | ⟨y, l₂, a, p, q, r, _⟩
      · simp [superConst, hm, a, b', constIn, hb]
      · simp only [superConst, hm, a, constIn, List.findSome?_cons]
        rw [superConst_spec hb p (show l₂.length + 1 < n by omega), q]
        rfl
    · simp [superConst, hm, constIn]

theorem superConst_mono {h b id} : ∀ {n c r}, superConst h b id n c = some r → superConst h b id (n + 1) c = some r
  | n + 1, c, r, e => by
    rw [superConst] at e ⊢
    rcases hm : ownConst h c id with _ | f
    · rw [hm] at e
      simp only at e ⊢
      rcases hu : upper n h c with _ | _ | u
      · rw [hu] at e; cases e
      · rw [hu] at e
        rw [show upper (n + 1) h c = some none from upperLoop_mono hu]
        exact e
      · rw [hu] at e
        rw [show upper (n + 1) h c = some (some u) from upperLoop_mono hu]
        exact superConst_mono e
    · rw [hm] at e; exact e

theorem superConst_le {h b id n c r} (e : superConst h b id n c = some r) : ∀ {m}, n ≤ m → superConst h b id m c = some r := by
  intro m hm
  induction hm with
  | refl => exact e
  | step _ ih => exact superConst_mono ih

theorem constIn_first {h : Heap} (I : Inv h) {id : Id} : ∀ {l : List Addr}, (∀ x ∈ l, Copy h x ∨ Real h x) →
    constIn h id l = firstConst h.log id (l.map (realModule h))
  | [], _ => rfl
  | x :: l, hl => by
    have hx : realModule h x = (h.info x).ext := by
      rcases hl x (by simp) with a | a
      · exact a.real
      · exact a.real I
    have ih := constIn_first I (id := id) (l := l) fun y hy => hl y (by simp [hy])
    simp only [constIn, List.findSome?_cons, firstConst, List.map_cons, ownConst, I.cons, hx] at ih ⊢
    rcases constOf h.log (h.info x).ext id with _ | f
    · exact ih
    · rfl

/-! ## What leaves constants alone -/

structure KeepC (h g : Heap) : Prop where
  next : h.next ≤ g.next
  info : ∀ x, x < h.next → (g.obj x).info = (h.obj x).info
  cons : ∀ a, a < h.next → (g.ext a).consts = (h.ext a).consts

theorem KeepC.refl (h : Heap) : KeepC h h := ⟨Nat.le_refl _, fun _ _ => rfl, fun _ _ => rfl⟩

theorem KeepC.trans {h g j : Heap} (a : KeepC h g) (b : KeepC g j) : KeepC h j :=
  ⟨Nat.le_trans a.next b.next, fun x hx => (b.info x (Nat.lt_of_lt_of_le hx a.next)).trans (a.info x hx),
    fun x hx => (b.cons x (Nat.lt_of_lt_of_le hx a.next)).trans (a.cons x hx)⟩

theorem KeepC.info' {h g : Heap} (k : KeepC h g) {x} (hx : x < h.next) : g.info x = h.info x := by
  simp [Heap.info, k.info x hx]

theorem KeepC.real {h g : Heap} (k : KeepC h g) {x} (r : Real h x) : Real g x := by
  obtain ⟨a, i, b, c⟩ := r
  exact ⟨Nat.lt_of_lt_of_le a k.next, i, by rw [k.info x a, b], c⟩

theorem KeepC.own {h g : Heap} (k : KeepC h g) (I : Inv h) {c id} (hc : Real h c ∨ Copy h c) : ownConst g c id = ownConst h c id := by
  have hn : c < h.next ∧ (h.info c).ext < h.next := by
    rcases hc with hc | hc
    · exact ⟨hc.1, by rw [I.ext c hc]; exact hc.1⟩
    · exact ⟨hc.1, hc.ext_lt⟩
  rw [ownConst, ownConst, k.info' hn.1, k.cons _ hn.2]

theorem findSome_congr {α β : Type} {f g : α → Option β} : ∀ {l : List α}, (∀ x ∈ l, f x = g x) → l.findSome? f = l.findSome? g
  | [], _ => rfl
  | x :: l, h => by
    rw [List.findSome?_cons, List.findSome?_cons, h x (by simp), findSome_congr (l := l) fun y hy => h y (by simp [hy])]

/-- The answer of a search without the cache. -/
def CAnswer (h : Heap) (scopes : List Addr) (c : Addr) (id : Id) (r : Option Val) : Prop :=
  ∀ n, h.next + 1 < n → findConst n h scopes c id = some r

theorem findConst_spec {h : Heap} (I : Inv h) {c : Addr} (hc : IsClass h c) {scopes id n} (hn : h.next + 1 < n) :
    ∃ l, Seg h (h.info c).upper l none ∧ (∀ x ∈ l, Copy h x ∨ Real h x) ∧
    findConst n h scopes c id = some ((lexicalConst h scopes id).or (constIn h id (c :: l.filter (vis h)))) := by
  obtain ⟨l, w, s, len, hl, _⟩ := I.chain c hc.1
  refine ⟨l, s, hl, ?_⟩
  rw [findConst]
  rcases lexicalConst h scopes id with _ | v
  · simp only [Option.none_or]; exact superConst_spec hc.2 s (by omega)
  · rfl

theorem KeepC.answer {h g : Heap} (k : KeepC h g) (I : Inv h) (Ig : Inv g) {scopes c id r} (hc : IsClass h c) (hs : ∀ x ∈ scopes, Real h x)
    (e : CAnswer h scopes c id r) : CAnswer g scopes c id r := by
  intro n hn
  obtain ⟨l, s, hl, e1⟩ := findConst_spec I hc (scopes := scopes) (id := id) (n := h.next + 2) (by omega)
  have hcg : IsClass g c := ⟨k.real hc.1, by rw [k.info' hc.1.1]; exact hc.2⟩
  obtain ⟨l', s', hl', e2⟩ := findConst_spec Ig hcg (scopes := scopes) (id := id) hn
  have lt : ∀ x ∈ l, x < h.next := fun x hx => by
    rcases hl x hx with a | a
    · exact a.1
    · exact a.1
  have sg : Seg g (g.info c).upper l none := by
    rw [k.info' hc.1.1]
    exact s.congr fun x hx => by rw [k.info' (lt x hx)]
  have hll := sg.unique s'
  subst hll
  rw [e (h.next + 2) (by omega)] at e1
  rw [e2, Option.some.inj e1]
  congr 1
  have v : l.filter (vis g) = l.filter (vis h) := by
    apply List.filter_congr
    intro x hx
    rw [vis, vis, k.info' (lt x hx)]
  rw [v]
  congr 1
  · exact findSome_congr fun x hx => k.own I (.inl (hs x (List.mem_reverse.1 hx)))
  · refine findSome_congr fun x hx => k.own I ?_
    rcases List.mem_cons.1 hx with rfl | hx
    · exact .inl hc.1
    · exact (hl x (List.mem_of_mem_filter hx)).symm

theorem keepC_new (h : Heap) (cls : Addr) (b sup target) : KeepC h (newInfo h cls b sup target).1 := by
  have ne : ∀ x, x < h.next → x ≠ h.next := fun x hx => Nat.ne_of_lt hx
  refine ⟨Nat.le_succ _, fun x hx => ?_, fun x hx => ?_⟩
  · simp [newInfo, upd, ne x hx]
  · simp [newInfo, upd, ne x hx]

theorem keepC_setCls (h : Heap) (a c : Addr) : KeepC h (h.setCls a c) := by
  refine ⟨Nat.le_refl _, fun x _ => ?_, fun _ _ => rfl⟩
  simp only [Heap.setCls, upd]; split <;> simp_all

theorem getSingleton_keepC : ∀ {n h a g s}, getSingleton n h a = some (g, s) → KeepC h g
  | n + 1, h, a, g, s, e => by
    rw [getSingleton] at e
    simp only at e
    split at e
    · simp only [Option.some.injEq, Prod.mk.injEq] at e
      obtain ⟨rfl, rfl⟩ := e
      exact .refl _
    · split at e
      · split at e
        · simp only [Option.some.injEq, Prod.mk.injEq] at e
          obtain ⟨rfl, rfl⟩ := e
          exact (keepC_new _ _ _ _ _).trans (keepC_setCls _ _ _)
        · split at e
          · cases e
          · simp only [Option.some.injEq, Prod.mk.injEq] at e
            obtain ⟨rfl, rfl⟩ := e
            exact (keepC_new _ _ _ _ _).trans (keepC_setCls _ _ _)
          · split at e
            · cases e
            · rename_i hg
              simp only [Option.some.injEq, Prod.mk.injEq] at e
              obtain ⟨rfl, rfl⟩ := e
              exact (getSingleton_keepC hg).trans ((keepC_new _ _ _ _ _).trans (keepC_setCls _ _ _))
      · simp only [Option.some.injEq, Prod.mk.injEq] at e
        obtain ⟨rfl, rfl⟩ := e
        exact (keepC_new _ _ _ _ _).trans (keepC_setCls _ _ _)

/-- No `include` or `prepend`. -/
def Cmd.still : Cmd → Bool
  | .incl _ _ | .prep _ _ => false
  | _ => true

theorem cmd_keepC {n h c g} (e : Cmd.run n h c = some g) (hs : c.still = true) (hn : c.sets = false) : KeepC h g := by
  cases c <;> simp only [Cmd.run] at e
  case newModule => cases e; exact keepC_new _ _ _ _ _
  all_goals
    split at e
    case isFalse => cases e
  case newClass sup =>
    simp only [Option.map_eq_some_iff, Prod.exists, exists_and_right, exists_eq_right] at e
    obtain ⟨c, e⟩ := e
    unfold newClass at e
    dsimp only at e
    split at e
    · cases e
    · rename_i hg
      simp only [Option.some.injEq, Prod.mk.injEq] at e
      obtain ⟨rfl, _⟩ := e
      exact (keepC_new _ _ _ _ _).trans (getSingleton_keepC hg)
  case newObject c =>
    cases e
    have ne : ∀ x, x < h.next → x ≠ h.next := fun x hx => Nat.ne_of_lt hx
    refine ⟨Nat.le_succ _, fun x hx => ?_, fun _ _ => rfl⟩
    simp [newObject, Heap.alloc, upd, ne x hx]
  case singleton a =>
    simp only [Option.map_eq_some_iff, Prod.exists, exists_and_right, exists_eq_right] at e
    obtain ⟨c, e⟩ := e
    exact getSingleton_keepC e
  case incl => cases hs
  case prep => cases hs
  case defm c name f =>
    cases e
    refine ⟨Nat.le_refl _, fun _ _ => rfl, fun a _ => ?_⟩
    simp only [addMethod, upd]; split <;> simp_all
  case setc => cases hn

/-! ## The invariant of the cache -/

/-- What a cache entry is for: the name, the enclosing classes and the class of `self`. -/
structure Use where
  id : Id
  scopes : List Addr
  c : Addr

structure CSound (u : Nat → Use) (k : Nat) (s : CVM) : Prop where
  reach : Reach s.heap
  count : s.version.toNat = k
  cache : ∀ slot ver v, s.cache slot = (ver, some v) → IsClass s.heap (u slot).c ∧ (∀ x ∈ (u slot).scopes, Real s.heap x) ∧ ver.toNat ≤ k ∧
    (ver = s.version → CAnswer s.heap (u slot).scopes (u slot).c (u slot).id (some v))

/-- Each cache entry is used for one purpose, and the class of `self` is a class. -/
def OneUse (u : Nat → Use) (os : List COp) : Prop := ∀ slot id scopes c, COp.get slot id scopes c ∈ os → u slot = ⟨id, scopes, c⟩

def Still (os : List COp) : Prop := ∀ c, COp.cmd c ∈ os → c.still = true

/-- The modules of a reachable heap stay modules; the class of an object is a class. -/
theorem findConst_answer {h : Heap} (I : Inv h) {scopes c id n r} (hc : IsClass h c) (e : findConst n h scopes c id = some r) :
    CAnswer h scopes c id r := by
  intro m hm
  obtain ⟨l, s, hl, e1⟩ := findConst_spec I hc (scopes := scopes) (id := id) (n := max n m) (by omega)
  obtain ⟨l', s', hl', e2⟩ := findConst_spec I hc (scopes := scopes) (id := id) hm
  have e3 : findConst (max n m) h scopes c id = some r := by
    rw [findConst] at e ⊢
    split
    · rename_i v hv; rw [hv] at e; exact e
    · rename_i hv; rw [hv] at e; exact superConst_le e (by omega)
  rw [e1] at e3
  rw [e2, ← e3, s.unique s']

theorem cexec_sound {u k n s o s' r} (S : CSound u k s) (hu : OneUse u [o]) (hk : k + setCount [o] < 2 ^ 32)
    (hcls : ∀ slot id scopes c, o = .get slot id scopes c → (s.heap.info c).isModule = false)
    (hst : Still [o] ∨ ∀ slot, (s.cache slot).2 = none)
    (e : cexec n s o = some (s', r)) : CSound u (k + setCount [o]) s' ∧
      match o with
      | .cmd _ => ∀ slot, s'.cache slot = s.cache slot
      | .get _ id scopes c => CAnswer s.heap scopes c id r := by
  cases o with
  | cmd c =>
    simp only [cexec] at e
    rcases hr : c.run n s.heap with _ | h
    · rw [hr] at e; cases e
    · rw [hr] at e
      simp only [Option.some.injEq, Prod.mk.injEq] at e
      obtain ⟨rfl, _⟩ := e
      refine ⟨?_, fun _ => rfl⟩
      have R := c.run_reach S.reach hr
      have cnt := S.count
      rcases hst with hst | hst
      · have hst := hst c (by simp)
        rcases hb : c.sets with _ | _
        · simp only [setCount, hb, Bool.false_eq_true, if_false, Nat.add_zero]
          have K := cmd_keepC hr hst hb
          refine ⟨R, S.count, fun slot ver v e => ?_⟩
          obtain ⟨a, b, d, f⟩ := S.cache slot ver v e
          exact ⟨⟨K.real a.1, by rw [K.info' a.1.1]; exact a.2⟩, fun x hx => K.real (b x hx), d, fun hv => K.answer S.reach.good.toInv R.good.toInv a b (f hv)⟩
        · simp only [setCount, hb, if_true, Nat.add_zero] at hk ⊢
          have hv : (s.version + 1).toNat = k + 1 := by
            rw [BitVec.toNat_add, cnt, show (1 : BitVec 32).toNat = 1 from rfl, Nat.mod_eq_of_lt hk]
          have old : ∀ v : BitVec 32, v.toNat ≤ k → v ≠ s.version + 1 := fun v hle e => by rw [e, hv] at hle; omega
          refine ⟨R, hv, fun slot ver v e => ?_⟩
          obtain ⟨a, b, d, f⟩ := S.cache slot ver v e
          have same : h.obj = s.heap.obj ∧ h.next = s.heap.next := by
            cases c <;> simp only [Cmd.sets] at hb <;> try cases hb
            simp only [Cmd.run] at hr
            split at hr
            · cases hr; exact ⟨rfl, rfl⟩
            · cases hr
          have rl : ∀ x, Real s.heap x → Real h x := fun x ⟨p, i, q, t⟩ => ⟨by rw [same.2]; exact p, i, by rw [same.1]; exact q, t⟩
          refine ⟨⟨rl _ a.1, ?_⟩, fun x hx => rl _ (b x hx), Nat.le_succ_of_le d, fun hv => absurd hv (old ver d)⟩
          have := a.2
          simp only [Heap.info, same.1] at this ⊢
          exact this
      · refine ⟨R, ?_, fun slot ver v e => ?_⟩
        · rcases hb : c.sets with _ | _
          · simp [setCount, hb, cnt]
          · simp only [setCount, hb, if_true, Nat.add_zero] at hk ⊢
            rw [BitVec.toNat_add, cnt, show (1 : BitVec 32).toNat = 1 from rfl, Nat.mod_eq_of_lt hk]
        · have := hst slot
          change (s.cache slot) = _ at e
          rw [e] at this; cases this
  | get slot id scopes c =>
    have hus := hu slot id scopes c (by simp)
    simp only [cexec] at e
    split at e
    · rename_i hc
      simp only [Bool.and_eq_true, realB_iff, List.all_eq_true] at hc
      have hcc : IsClass s.heap c := ⟨hc.1, hcls slot id scopes c rfl⟩
      have search : ∀ {s' r}, (match findConst n s.heap scopes c id with
        | none => none
        | some none => some (s, none)
        | some (some v) => some ({ s with cache := upd s.cache slot (s.version, some v) }, some v)) = some (s', r) →
        CSound u k s' ∧ CAnswer s.heap scopes c id r := by
        intro s' r e
        rcases hf : findConst n s.heap scopes c id with _ | _ | v
        · rw [hf] at e; cases e
        · rw [hf] at e
          simp only [Option.some.injEq, Prod.mk.injEq] at e
          obtain ⟨rfl, rfl⟩ := e
          exact ⟨S, findConst_answer S.reach.good.toInv hcc hf⟩
        · rw [hf] at e
          simp only [Option.some.injEq, Prod.mk.injEq] at e
          obtain ⟨rfl, rfl⟩ := e
          have A := findConst_answer S.reach.good.toInv hcc hf
          refine ⟨⟨S.reach, S.count, fun slot' ver v' e' => ?_⟩, A⟩
          simp only [upd] at e'
          split at e'
          · rename_i he
            rw [he, hus]
            cases e'
            exact ⟨hcc, hc.2, Nat.le_of_eq S.count, fun _ => A⟩
          · exact S.cache _ _ _ e'
      simp only [setCount, Nat.add_zero]
      split at e
      · rename_i ver v hv
        split at e
        · rename_i hver
          simp only [Option.some.injEq, Prod.mk.injEq] at e
          obtain ⟨rfl, rfl⟩ := e
          obtain ⟨_, _, _, f⟩ := S.cache slot ver v hv
          rw [hus] at f
          exact ⟨S, f hver⟩
        · exact search e
      · exact search e
    · cases e

theorem setCount_cons (o : COp) (os : List COp) : setCount (o :: os) = setCount [o] + setCount os := by
  cases o <;> simp [setCount]

/-- At every use of a constant the class of `self` is a class (never a module). -/
def SelfClass (n : Nat) : CVM → List COp → Prop
  | _, [] => True
  | s, o :: os => (∀ slot id scopes c, o = .get slot id scopes c → (s.heap.info c).isModule = false) ∧
      ∀ s' r, cexec n s o = some (s', r) → SelfClass n s' os

theorem cexecAll_sound {u n} : ∀ {os k s s'}, CSound u k s → SelfClass n s os → OneUse u os → Still os → k + setCount os < 2 ^ 32 →
    cexecAll n s os = some s' → CSound u (k + setCount os) s'
  | [], k, s, s', S, _, _, _, _, e => by cases e; exact S
  | o :: os, k, s, s', S, hp, hn, hst, hk, e => by
    rw [setCount_cons] at hk ⊢
    rw [cexecAll] at e
    split at e
    · cases e
    · rename_i s₁ r hs
      obtain ⟨S', _⟩ := cexec_sound S (fun a b c d h => hn a b c d (by simp at h; simp [h])) (by omega) hp.1
        (.inl fun c hc => hst c (by simp at hc; simp [hc])) hs
      rw [← Nat.add_assoc]
      exact cexecAll_sound S' (hp.2 _ _ hs) (fun a b c d h => hn a b c d (by simp [h])) (fun c hc => hst c (by simp [hc])) (by omega) e

/-- Only commands: the cache stays empty. -/
theorem cexecAll_build {u n} : ∀ {os : List Cmd} {k s s'}, CSound u k s → (∀ slot, (s.cache slot).2 = none) → k + setCount (os.map COp.cmd) < 2 ^ 32 →
    cexecAll n s (os.map COp.cmd) = some s' → CSound u (k + setCount (os.map COp.cmd)) s'
  | [], k, s, s', S, _, _, e => by cases e; exact S
  | o :: os, k, s, s', S, hc, hk, e => by
    rw [List.map_cons, setCount_cons] at hk ⊢
    rw [List.map_cons, cexecAll] at e
    split at e
    · cases e
    · rename_i s₁ r hs
      obtain ⟨S', hc'⟩ := cexec_sound S (fun a b c d h => by simp at h) (by omega) (fun _ _ _ _ h => by cases h) (.inr hc) hs
      rw [← Nat.add_assoc]
      exact cexecAll_build S' (fun slot => by rw [hc']; exact hc slot) (by omega) e

theorem csound_start (u) : CSound u 0 {} := ⟨.boot, rfl, fun _ _ _ e => by cases e⟩

theorem cexecAll_append {n} : ∀ {a b s}, cexecAll n s (a ++ b) = (cexecAll n s a).bind (cexecAll n · b)
  | [], _, _ => rfl
  | o :: a, b, s => by
    rw [List.cons_append, cexecAll, cexecAll]
    rcases cexec n s o with _ | ⟨s', r⟩
    · rfl
    · exact cexecAll_append

end Verif.Class
