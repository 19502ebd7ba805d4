import Verif.Class.Props
/-! # The method caches

Model of `MethodRepo::find_method` and `find_method_inline_cache` with their caches (globals/method.rs).  Addresses are
never reused here: a cache entry for a class that the collector freed is outside the model. -/
namespace Verif.Class

/-- `InlineCacheEntry` (globals/method.rs:259-274).  The class of a fresh entry is the nil value, which is no class. -/
structure IEntry where
  version : BitVec 32 := 0
  cls : Option Addr := none
  fid : Fn := 0

/-- The class graph with the caches (`MethodRepo`, globals/method.rs:5-13).  The global cache is the partial function
that its hash map represents, keyed by the address of the class and the name. -/
structure VM where
  heap : Heap := boot
  version : BitVec 32 := 0
  global : Addr → Id → Option (Fn × BitVec 32) := fun _ _ => none
  inline : Nat → IEntry := fun _ => {}

/-- `MethodRepo::find_method` (globals/method.rs:104-120) with `MethodCache` (globals/method.rs:333-350). -/
def findMethod (n : Nat) (s : VM) (c : Addr) (name : Id) : Option (VM × Option Fn) :=
  let search := match searchMethod n s.heap c name with
    | none => none
    | some none => some (s, none)
    | some (some (f, _)) =>
      some ({ s with global := upd s.global c (upd (s.global c) name (some (f, s.version))) }, some f)
  match s.global c name with
  | some (f, v) => if s.version = v then some (s, some f) else search
  | none => search

/-- `MethodRepo::find_method_inline_cache` (globals/method.rs:79-96) with `InlineCache` (globals/method.rs:276-307). -/
def findInline (n : Nat) (s : VM) (slot : Nat) (c : Addr) (name : Id) : Option (VM × Option Fn) :=
  let e := s.inline slot
  if s.version = e.version ∧ e.cls = some c then some (s, some e.fid)
  else
    match findMethod n s c name with
    | none => none
    | some (s', none) => some (s', none)
    | some (s', some f) => some ({ s' with inline := upd s'.inline slot { version := s.version, cls := some c, fid := f } }, some f)

/-- What a program does. -/
inductive Op
  /-- change the class graph -/
  | cmd (c : Cmd)
  /-- a call instruction with cache entry `slot`, on a receiver of class `c` -/
  | call (slot : Nat) (c : Addr) (name : Id)
  /-- a lookup without call instruction -/
  | find (c : Addr) (name : Id)

/-- `inc_class_version` (globals/method.rs:70-72) is called by `append_include`, `append_prepend` and `add_method`
(value/class.rs:481, 527, 721), and by nothing else.  A release build wraps around. -/
def Cmd.bumps : Cmd → Bool
  | .incl _ _ | .prep _ _ | .defm _ _ _ => true
  | _ => false

def exec (n : Nat) (s : VM) : Op → Option (VM × Option Fn)
  | .cmd c =>
    match c.run n s.heap with
    | none => none
    | some h => some ({ s with heap := h, version := if c.bumps then s.version + 1 else s.version }, none)
  | .call slot c name => if s.heap.realB c then findInline n s slot c name else none
  | .find c name => if s.heap.realB c then findMethod n s c name else none

def execAll (n : Nat) : VM → List Op → Option VM
  | s, [] => some s
  | s, o :: os => match exec n s o with
    | none => none
    | some (s', _) => execAll n s' os

/-- How often the version count goes up. -/
def bumpCount : List Op → Nat
  | [] => 0
  | .cmd c :: os => (if c.bumps then 1 else 0) + bumpCount os
  | _ :: os => bumpCount os

/-- No class derives from a singleton class, and no singleton class of a singleton class is made. -/
def Plain (h : Heap) : Op → Prop
  | .cmd (.newClass sup) => h.isSingleton sup = false
  | .cmd (.singleton a) => h.isSingleton a = false
  | _ => True

/-- `Plain` all along a run. -/
def AllPlain (n : Nat) : VM → List Op → Prop
  | _, [] => True
  | s, o :: os => Plain s.heap o ∧ ∀ s' r, exec n s o = some (s', r) → AllPlain n s' os

/-- Each call instruction calls one name (it is fixed in the instruction). -/
def OneName (nm : Nat → Id) (os : List Op) : Prop := ∀ slot c name, Op.call slot c name ∈ os → name = nm slot

/-! ## Answers of the search do not depend on the fuel -/

theorem searchLoop_mono {h st name} : ∀ {n c b r}, searchLoop h st name n c b = some r → searchLoop h st name (n + 1) c b = some r
  | n + 1, c, b, r, e => by
    rw [searchLoop] at e ⊢
    rcases hm : (h.ext (h.info c).ext).methods name with _ | f
    · rw [hm] at e
      simp only at e ⊢
      rcases hu : upper n h c with _ | _ | u
      · rw [hu] at e; cases e
      · rw [hu] at e
        simp only at e
        rw [show upper (n + 1) h c = some none from upperLoop_mono hu]
        simp only
        split at e
        · rename_i hb; rw [if_pos hb]; exact searchLoop_mono e
        · rename_i hb; rw [if_neg hb]; exact e
      · rw [hu] at e
        rw [show upper (n + 1) h c = some (some u) from upperLoop_mono hu]
        exact searchLoop_mono e
    · rw [hm] at e; exact e

theorem searchLoop_le {h st name n c b r} (e : searchLoop h st name n c b = some r) : ∀ {m}, n ≤ m → searchLoop h st name m c b = some r := by
  intro m hm
  induction hm with
  | refl => exact e
  | step _ ih => exact searchLoop_mono ih

theorem searchMethod_unique {h c name n m r r'} (a : searchMethod n h c name = some r) (b : searchMethod m h c name = some r') :
    r = r' := by
  have a' := searchLoop_le a (m := max n m) (by omega)
  have b' := searchLoop_le b (m := max n m) (by omega)
  exact Option.some.inj (a'.symm.trans b')

/-- The search ends on every reachable heap. -/
theorem searchMethod_ends {h : Heap} (G : Good h) {c : Addr} (hc : Real h c) (name : Id) {n : Nat} (hn : 2 * h.next + 2 < n) :
    ∃ r, searchMethod n h c name = some r := by
  obtain ⟨ch, w, s, len, _⟩ := G.toInv.chain c hc
  obtain ⟨ch', w', s', len', _⟩ := G.toInv.chain _ (G.cls c).1
  rw [searchMethod]
  cases h.isSingleton c
  · exact ⟨_, searchLoop_false s (by omega)⟩
  · exact ⟨_, searchLoop_true s' s (by omega)⟩

/-- The method that a search of the class chain finds. -/
def Finds (h : Heap) (c : Addr) (name : Id) (f : Fn) : Prop := ∃ n owner, searchMethod n h c name = some (some (f, owner))

/-! ## What does not change the outcome of searches -/

/-- `g` has all of `h`, and the same classes behind singleton classes. -/
structure Keep (h g : Heap) : Prop where
  next : h.next ≤ g.next
  info : ∀ x, x < h.next → (g.obj x).info = (h.obj x).info
  meth : ∀ a, a < h.next → (g.ext a).methods = (h.ext a).methods
  sing : ∀ a, a < h.next → (g.ext a).singletonFor = (h.ext a).singletonFor
  cls : ∀ c, Real h c → h.isSingleton c = true → (g.obj c).cls = (h.obj c).cls

theorem Keep.refl (h : Heap) : Keep h h := ⟨Nat.le_refl _, fun _ _ => rfl, fun _ _ => rfl, fun _ _ => rfl, fun _ _ _ => rfl⟩

theorem Keep.info' {h g : Heap} (k : Keep h g) {x} (hx : x < h.next) : g.info x = h.info x := by
  simp [Heap.info, k.info x hx]

theorem Keep.real {h g : Heap} (k : Keep h g) {x} (r : Real h x) : Real g x := by
  obtain ⟨a, i, b, c⟩ := r
  exact ⟨Nat.lt_of_lt_of_le a k.next, i, by rw [k.info x a, b], c⟩

theorem Keep.isSingleton {h g : Heap} (k : Keep h g) (I : Inv h) {x} (r : Real h x) : g.isSingleton x = h.isSingleton x := by
  rw [Heap.isSingleton, Heap.isSingleton, k.info' r.1, I.ext x r, k.sing x r.1]

theorem Keep.trans {h g j : Heap} (I : Inv h) (a : Keep h g) (b : Keep g j) : Keep h j :=
  ⟨Nat.le_trans a.next b.next, fun x hx => (b.info x (Nat.lt_of_lt_of_le hx a.next)).trans (a.info x hx),
    fun x hx => (b.meth x (Nat.lt_of_lt_of_le hx a.next)).trans (a.meth x hx),
    fun x hx => (b.sing x (Nat.lt_of_lt_of_le hx a.next)).trans (a.sing x hx),
    fun c hc hs => (b.cls c (a.real hc) (by rw [a.isSingleton I hc]; exact hs)).trans (a.cls c hc hs)⟩

theorem Keep.firstIn {h g : Heap} (k : Keep h g) {name} : ∀ {l : List Addr}, (∀ x ∈ l, x < h.next ∧ (h.info x).ext < h.next) →
    firstIn g name l = firstIn h name l
  | [], _ => rfl
  | x :: l, hl => by
    have := hl x (by simp)
    rw [Verif.Class.firstIn, Verif.Class.firstIn, k.info' this.1, k.meth _ this.2, k.firstIn (l := l) fun y hy => hl y (by simp [hy])]

theorem Keep.finds {h g : Heap} (k : Keep h g) (G : Good h) {c name f} (hc : Real h c) (e : Finds h c name f) : Finds g c name f := by
  obtain ⟨n, owner, e⟩ := e
  have I := G.toInv
  have ok : ∀ x, Copy h x ∨ Real h x → x < h.next ∧ (h.info x).ext < h.next := by
    intro x hx
    rcases hx with a | a
    · exact ⟨a.1, a.ext_lt⟩
    · exact ⟨a.1, by rw [I.ext x a]; exact a.1⟩
  have seg : ∀ c, Real h c → ∃ l, Seg h (h.info c).upper l none ∧ Seg g (g.info c).upper l none ∧ l.filter (vis g) = l.filter (vis h) ∧
      ∀ x ∈ l.filter (vis h), x < h.next ∧ (h.info x).ext < h.next := by
    intro c hc
    obtain ⟨l, w, s, len, hl, _⟩ := I.chain c hc
    refine ⟨l, s, ?_, ?_, fun x hx => ok x (hl x (List.mem_of_mem_filter hx))⟩
    · rw [k.info' hc.1]
      exact s.congr fun x hx => by rw [k.info' (ok x (hl x hx)).1]
    · apply List.filter_congr
      intro x hx
      rw [vis, vis, k.info' (ok x (hl x hx)).1]
  obtain ⟨l, s1, s2, s3, s4⟩ := seg c hc
  have hs := k.isSingleton I hc
  rcases hb : h.isSingleton c with _ | _
  · have e' := searchLoop_false (st := c) (name := name) s1 (n := l.length + 2) (by omega)
    have e2 := searchLoop_false (st := c) (name := name) s2 (n := l.length + 2) (by omega)
    rw [s3, k.firstIn (by
      intro x hx
      rcases List.mem_cons.1 hx with rfl | hx
      · exact ok x (.inr hc)
      · exact s4 x hx)] at e2
    have := searchMethod_unique (n := l.length + 2) (by rw [searchMethod, hb]; exact e') e
    exact ⟨l.length + 2, owner, by rw [searchMethod, hs, hb, e2, this]⟩
  · obtain ⟨l', t1, t2, t3, t4⟩ := seg _ (G.cls c).1
    have hcl := k.cls c hc hb
    have e' := searchLoop_true (st := c) (name := name) t1 s1 (n := l.length + l'.length + 3) (by omega)
    have e2 := searchLoop_true (st := c) (name := name) (l' := l') (by rw [hcl]; exact t2) s2 (n := l.length + l'.length + 3) (by omega)
    rw [s3, t3, hcl, k.firstIn (by
      intro x hx
      rcases List.mem_append.1 hx with hx | hx
      · rcases List.mem_cons.1 hx with rfl | hx
        · exact ok x (.inr hc)
        · exact s4 x hx
      · rcases List.mem_cons.1 hx with rfl | hx
        · exact ok _ (.inr (G.cls c).1)
        · exact t4 x hx)] at e2
    have := searchMethod_unique (n := l.length + l'.length + 3) (by rw [searchMethod, hb]; exact e') e
    exact ⟨_, owner, by rw [searchMethod, hs, hb, e2, this]⟩

/-! ## The operations that do not count -/

/-- Only singleton classes derive from singleton classes. -/
def NS (h : Heap) : Prop := ∀ c s, superOf h.log c = some s → Real h c ∧ (h.isSingleton c = false → h.isSingleton s = false)

theorem keep_new (h : Heap) (cls : Addr) (b sup target) : Keep h (newInfo h cls b sup target).1 := by
  have ne : ∀ x, x < h.next → x ≠ h.next := fun x hx => Nat.ne_of_lt hx
  refine ⟨Nat.le_succ _, fun x hx => ?_, fun x hx => ?_, fun x hx => ?_, fun x hx _ => ?_⟩
  · simp [newInfo, upd, ne x hx]
  · simp [newInfo, upd, ne x hx]
  · simp [newInfo, upd, ne x hx]
  · simp [newInfo, upd, ne x hx.1]

theorem keep_setCls {h : Heap} {a c : Addr} (ha : Real h a → h.isSingleton a = false) : Keep h (h.setCls a c) := by
  refine ⟨Nat.le_refl _, fun x _ => ?_, fun _ _ => rfl, fun _ _ => rfl, fun x hx hs => ?_⟩
  · simp only [Heap.setCls, upd]; split <;> simp_all
  · have : x ≠ a := fun e => by subst e; rw [ha hx] at hs; cases hs
    simp [Heap.setCls, upd, this]

theorem isSingleton_setCls (h : Heap) (a c x : Addr) : (h.setCls a c).isSingleton x = h.isSingleton x := by
  rw [Heap.isSingleton, setCls_info]; rfl

theorem ns_setCls {h : Heap} (N : NS h) (a c : Addr) : NS (h.setCls a c) := fun x s hs => by
  rw [isSingleton_setCls, isSingleton_setCls, setCls_real]
  exact N x s hs

theorem ns_new {h : Heap} (G : Inv h) (N : NS h) {cls b sup target} (hs : target = none → ∀ s, sup = some s → h.isSingleton s = false)
    (hsr : ∀ s, sup = some s → Real h s) (hb : b = true → sup = none) :
    NS (newInfo h cls b sup target).1 := by
  have k := keep_new h cls b sup target
  intro x s hsx
  by_cases e : x = h.next
  · subst e
    have h1 : superOf (newInfo h cls b sup target).1.log h.next = sup := by
      simp only [newInfo]
      cases b
      · simp [superOf]
      · rw [hb rfl]; simp only [if_true, superOf]; exact fresh_super G.below (Nat.le_refl _)
    rw [h1] at hsx
    refine ⟨newInfo_new.1, fun hbx => ?_⟩
    have h2 : target = none := by
      rw [Heap.isSingleton, newInfo_new.2] at hbx
      simpa [newInfo, upd] using hbx
    rw [k.isSingleton G (hsr s hsx)]
    exact hs h2 s hsx
  · have h1 : superOf h.log x = some s := by
      rw [← hsx]
      simp only [newInfo]
      cases b <;> simp [superOf, Ne.symm e]
    obtain ⟨hx, himp⟩ := N x s h1
    refine ⟨k.real hx, fun hbx => ?_⟩
    rw [k.isSingleton G hx] at hbx
    rw [k.isSingleton G (G.sup x s h1).2.1]
    exact himp hbx

theorem superclass_super {h : Heap} (I : Inv h) {n c s} (hc : Real h c) (e : superclass n h c = some (some s)) :
    superOf h.log c = some s := by
  obtain ⟨l, sl, cl, _⟩ := I.body c hc
  have big : superclass (n + l.length + 1) h c = some (superOf h.log c) := by
    rcases hs : superOf h.log c with _ | t
    · rw [hs] at sl
      exact superLoop_none sl (fun x hx => (cl x hx).included) (by omega)
    · rw [hs] at sl
      exact superLoop_spec sl (fun x hx => (cl x hx).included) (I.sup c t hs).2.1.included (by omega)
  have up : ∀ k, superLoop h (n + k) (h.info c).upper = some (some s) := by
    intro k
    induction k with
    | zero => exact e
    | succ k ih => exact superLoop_mono ih
  rw [superclass, Nat.add_assoc, up] at big
  exact (Option.some.inj big).symm

theorem single_step {h : Heap} (G : Good h) (N : NS h) {a : Addr} (ha : Real h a → h.isSingleton a = false) {sup : Option Addr}
    (hs : ∀ s, sup = some s → IsClass h s) :
    Keep h ((newInfo h classC false sup (some a)).1.setCls a (newInfo h classC false sup (some a)).2) ∧
    NS ((newInfo h classC false sup (some a)).1.setCls a (newInfo h classC false sup (some a)).2) := by
  have k := keep_new h classC false sup (some a)
  refine ⟨⟨k.next, fun x hx => ?_, k.meth, k.sing, fun x hx hsx => ?_⟩,
    ns_setCls (ns_new G.toInv N (fun e => by cases e) (fun s hs' => (hs s hs').1) (fun e => by cases e)) _ _⟩
  · rw [← k.info x hx]; simp only [Heap.setCls, upd]; split <;> simp_all
  · have : x ≠ a := fun e => by subst e; rw [ha hx] at hsx; cases hsx
    rw [← k.cls x hx hsx]; simp [Heap.setCls, upd, this]

theorem getSingleton_keep : ∀ {n h a g s}, Good h → NS h → (∀ i, (h.obj a).info = some i → Real h a) →
    (Real h a → h.isSingleton a = false) → getSingleton n h a = some (g, s) → Keep h g ∧ NS g
  | n + 1, h, a, g, s, G, N, hr, ha, e => by
    rw [getSingleton] at e
    simp only at e
    split at e
    · simp only [Option.some.injEq, Prod.mk.injEq] at e
      obtain ⟨rfl, rfl⟩ := e
      exact ⟨.refl _, N⟩
    · split at e
      · rename_i i hi
        have har := hr i hi
        split at e
        · simp only [Option.some.injEq, Prod.mk.injEq] at e
          obtain ⟨rfl, rfl⟩ := e
          exact single_step G N ha (fun s hs => by cases hs; exact G.cls a)
        · split at e
          · cases e
          · simp only [Option.some.injEq, Prod.mk.injEq] at e
            obtain ⟨rfl, rfl⟩ := e
            exact single_step G N ha (fun s hs => by cases hs)
          · rename_i sup hsup
            split at e
            · cases e
            · rename_i h' ss hg
              simp only [Option.some.injEq, Prod.mk.injEq] at e
              obtain ⟨rfl, rfl⟩ := e
              have hsc := superclass_class G.toInv har hsup
              have hso := superclass_super G.toInv har hsup
              obtain ⟨k1, n1⟩ := getSingleton_keep G N (fun _ _ => hsc.1) (fun _ => (N a sup hso).2 (ha har)) hg
              obtain ⟨g1, c1, _⟩ := getSingleton_good G (fun _ _ => hsc.1) hg
              obtain ⟨k2, n2⟩ := single_step g1 n1 (a := a) (fun _ => by rw [k1.isSingleton G.toInv har]; exact ha har)
                (sup := some ss) (fun s hs => by cases hs; exact c1)
              exact ⟨k1.trans G.toInv k2, n2⟩
      · simp only [Option.some.injEq, Prod.mk.injEq] at e
        obtain ⟨rfl, rfl⟩ := e
        exact single_step G N ha (fun s hs => by cases hs; exact G.cls a)

theorem ns_boot : NS boot := by
  intro c s hs
  simp only [boot, superOf] at hs
  split at hs
  · rename_i e; subst e; cases hs
    exact ⟨(boot_class (by decide)).1, fun hb => by simp [Heap.isSingleton, boot, Heap.info] at hb⟩
  split at hs
  · rename_i e; subst e; cases hs; exact ⟨(boot_class (by decide)).1, fun _ => rfl⟩
  split at hs
  · rename_i e; subst e; cases hs; exact ⟨(boot_class (by decide)).1, fun _ => rfl⟩
  split at hs
  · rename_i e; subst e; cases hs; exact ⟨(boot_class (by decide)).1, fun _ => rfl⟩
  split at hs <;> cases hs

theorem Grows.isSingleton {h g : Heap} (r : Grows h g) {x} (hx : Real h x) : g.isSingleton x = h.isSingleton x := by
  obtain ⟨h1, i, e, _⟩ := hx
  obtain ⟨u, p, t⟩ := r.info h1 e
  rw [Heap.isSingleton, Heap.isSingleton, t, info_eq e, r.sing]

theorem ns_grows {h g : Heap} (I : Inv h) (N : NS h) (r : Grows h g) (hl : ∀ c, superOf g.log c = superOf h.log c) : NS g := by
  intro c s hs
  rw [hl] at hs
  obtain ⟨hc, himp⟩ := N c s hs
  rw [r.isSingleton hc, r.isSingleton (I.sup c s hs).2.1]
  exact ⟨(r.real hc).1, himp⟩

/-! ## Every command -/

theorem ext_sing {h g : Heap} (ho : g.obj = h.obj) (he : ∀ a, (g.ext a).singletonFor = (h.ext a).singletonFor) (x : Addr) :
    g.isSingleton x = h.isSingleton x := by
  rw [Heap.isSingleton, Heap.isSingleton, Heap.info, Heap.info, ho, he]

theorem cmd_ns {n h c g} (R : Reach h) (N : NS h) (hp : Plain h (.cmd c)) (e : Cmd.run n h c = some g) :
    NS g ∧ (c.bumps = false → Keep h g) ∧ ∀ x, Real h x → Real g x := by
  have G := R.good
  have I := G.toInv
  cases c <;> simp only [Cmd.run] at e
  case newModule =>
    cases e
    have k : Keep h (newModule h).1 := keep_new _ _ _ _ _
    exact ⟨ns_new I N (fun _ s hs => by cases hs) (fun s hs => by cases hs) (fun _ => rfl), fun _ => k, fun x hx => k.real hx⟩
  all_goals
    split at e
    case isFalse => cases e
    rename_i hc
    simp only [Bool.and_eq_true, Bool.or_eq_true, Bool.not_eq_true', realB_iff, bne_iff_ne, Option.isNone_iff_eq_none] at hc
  case newClass sup =>
    simp only [Option.map_eq_some_iff, Prod.exists, exists_and_right, exists_eq_right] at e
    obtain ⟨c, e⟩ := e
    unfold newClass at e
    dsimp only at e
    split at e
    · cases e
    · rename_i hg
      simp only [Option.some.injEq, Prod.mk.injEq] at e
      obtain ⟨rfl, _⟩ := e
      have k1 := keep_new h classC false (some sup) none
      have n1 : NS (newInfo h classC false (some sup) none).1 :=
        ns_new I N (fun _ s hs => by cases hs; exact hp) (fun s hs => by cases hs; exact hc.1) (fun e => by cases e)
      have g1 := newInfo_good G (cls := classC) (b := false) (sup := some sup) (target := none) G.top
        (fun s hs' => by cases hs'; exact hc) (fun e => by cases e)
      obtain ⟨k2, n2⟩ := getSingleton_keep g1 n1 (fun _ _ => newInfo_new.1)
        (fun _ => by rw [Heap.isSingleton, newInfo_new.2]; simp [newInfo, upd]) hg
      have k := k1.trans I k2
      exact ⟨n2, fun _ => k, fun x hx => k.real hx⟩
  case newObject c =>
    cases e
    have k : Keep h (newObject h c).1 := by
      have ne : ∀ x, x < h.next → x ≠ h.next := fun x hx => Nat.ne_of_lt hx
      refine ⟨Nat.le_succ _, fun x hx => ?_, fun _ _ => rfl, fun _ _ => rfl, fun x hx _ => ?_⟩
      · simp [newObject, Heap.alloc, upd, ne x hx]
      · simp [newObject, Heap.alloc, upd, ne x hx.1]
    refine ⟨fun x s hs => ?_, fun _ => k, fun x hx => k.real hx⟩
    obtain ⟨a, b⟩ := N x s hs
    rw [k.isSingleton I a, k.isSingleton I (I.sup x s hs).2.1]
    exact ⟨k.real a, b⟩
  case singleton a =>
    simp only [Option.map_eq_some_iff, Prod.exists, exists_and_right, exists_eq_right] at e
    obtain ⟨c, e⟩ := e
    obtain ⟨k, n'⟩ := getSingleton_keep G N (fun i hi => by
      rcases hc with hc | hc
      · exact hc
      · rw [hc] at hi; cases hi) (fun _ => hp) e
    exact ⟨n', fun _ => k, fun x hx => k.real hx⟩
  case incl c m =>
    have r := grows_include e
    refine ⟨ns_grows I N r (fun x => ?_), fun h => (by cases h), fun x hx => (r.real hx).1⟩
    rw [(incl_good G hc.1.1.1 ⟨hc.1.1.2, hc.1.2⟩ hc.2 e).2]; rfl
  case prep c m =>
    have r := grows_prepend e
    refine ⟨ns_grows I N r (fun x => ?_), fun h => (by cases h), fun x hx => (r.real hx).1⟩
    rw [(prep_good G hc.1.1.1 ⟨hc.1.1.2, hc.1.2⟩ hc.2 e).2]; rfl
  case defm c name f =>
    cases e
    have hs : ∀ x, (addMethod h c name f).isSingleton x = h.isSingleton x :=
      ext_sing rfl fun a => by simp only [addMethod, upd]; split <;> simp_all
    refine ⟨fun x s hsx => ?_, fun h => (by cases h), fun x hx => hx⟩
    rw [hs, hs]
    exact N x s hsx
  case setc c name v =>
    cases e
    have hs : ∀ x, (setConst h c name v).isSingleton x = h.isSingleton x :=
      ext_sing rfl fun a => by simp only [setConst, upd]; split <;> simp_all
    refine ⟨fun x s hsx => ?_, fun _ => ⟨Nat.le_refl _, fun _ _ => rfl, fun a _ => ?_, fun a _ => ?_, fun _ _ _ => rfl⟩, fun x hx => hx⟩
    · rw [hs, hs]; exact N x s hsx
    · simp only [setConst, upd]; split <;> simp_all
    · simp only [setConst, upd]; split <;> simp_all

/-! ## The invariant of the caches -/

structure Sound (nm : Nat → Id) (k : Nat) (s : VM) : Prop where
  reach : Reach s.heap
  ns : NS s.heap
  count : s.version.toNat = k
  global : ∀ c name f v, s.global c name = some (f, v) → Real s.heap c ∧ v.toNat ≤ k ∧ (v = s.version → Finds s.heap c name f)
  inline : ∀ slot c, (s.inline slot).cls = some c → Real s.heap c ∧ (s.inline slot).version.toNat ≤ k ∧
    ((s.inline slot).version = s.version → Finds s.heap c (nm slot) (s.inline slot).fid)

theorem sound_start (nm) : Sound nm 0 {} := ⟨.boot, ns_boot, rfl, fun _ _ _ _ e => (by cases e), fun _ _ e => (by cases e)⟩

/-- The answer of an uncached search. -/
def Answer (h : Heap) (c : Addr) (name : Id) (r : Option Fn) : Prop :=
  ∀ n, 2 * h.next + 2 < n → (searchMethod n h c name).map (·.map (·.1)) = some r

theorem Finds.answer {h : Heap} (G : Good h) {c name f} (hc : Real h c) (e : Finds h c name f) : Answer h c name (some f) := by
  intro n hn
  obtain ⟨m, o, e⟩ := e
  obtain ⟨r, hr⟩ := searchMethod_ends G hc name hn
  rw [hr, searchMethod_unique hr e]; rfl

theorem findMethod_sound {nm k n s c name s' r} (S : Sound nm k s) (hc : Real s.heap c) (e : findMethod n s c name = some (s', r)) :
    Sound nm k s' ∧ s'.heap = s.heap ∧ s'.version = s.version ∧ s'.inline = s.inline ∧ Answer s.heap c name r ∧
      ∀ f, r = some f → Finds s.heap c name f := by
  have G := S.reach.good
  have search : ∀ {s' r}, (match searchMethod n s.heap c name with
      | none => none
      | some none => some (s, none)
      | some (some (f, _)) =>
        some ({ s with global := upd s.global c (upd (s.global c) name (some (f, s.version))) }, some f)) = some (s', r) →
      Sound nm k s' ∧ s'.heap = s.heap ∧ s'.version = s.version ∧ s'.inline = s.inline ∧ Answer s.heap c name r ∧
        ∀ f, r = some f → Finds s.heap c name f := by
    intro s' r e
    rcases hs : searchMethod n s.heap c name with _ | _ | ⟨f, o⟩
    · rw [hs] at e; cases e
    · rw [hs] at e
      simp only [Option.some.injEq, Prod.mk.injEq] at e
      obtain ⟨rfl, rfl⟩ := e
      refine ⟨S, rfl, rfl, rfl, fun m hm => ?_, fun f e => by cases e⟩
      obtain ⟨r, hr⟩ := searchMethod_ends G hc name hm
      rw [hr, searchMethod_unique hr hs]; rfl
    · rw [hs] at e
      simp only [Option.some.injEq, Prod.mk.injEq] at e
      obtain ⟨rfl, rfl⟩ := e
      have F : Finds s.heap c name f := ⟨n, o, hs⟩
      refine ⟨⟨S.reach, S.ns, S.count, fun c' name' f' v e => ?_, S.inline⟩, rfl, rfl, rfl, F.answer G hc, fun f' e => by cases e; exact F⟩
      simp only [upd] at e
      by_cases e1 : c' = c
      · subst e1
        rw [if_pos rfl] at e
        unfold upd at e
        by_cases e2 : name' = name
        · subst e2
          rw [if_pos rfl] at e
          cases e
          exact ⟨hc, Nat.le_of_eq S.count, fun _ => F⟩
        · rw [if_neg e2] at e
          exact S.global _ _ _ _ e
      · rw [if_neg e1] at e
        exact S.global _ _ _ _ e
  unfold findMethod at e
  dsimp only at e
  rcases hg : s.global c name with _ | ⟨f, v⟩
  · rw [hg] at e; exact search e
  · rw [hg] at e
    simp only at e
    split at e
    · rename_i hv
      simp only [Option.some.injEq, Prod.mk.injEq] at e
      obtain ⟨rfl, rfl⟩ := e
      have F := (S.global _ _ _ _ hg).2.2 hv.symm
      exact ⟨S, rfl, rfl, rfl, F.answer G hc, fun f' e => by cases e; exact F⟩
    · exact search e

theorem exec_sound {nm k n s o s' r} (S : Sound nm k s) (hp : Plain s.heap o) (hn : OneName nm [o]) (hk : k + bumpCount [o] < 2 ^ 32)
    (e : exec n s o = some (s', r)) : Sound nm (k + bumpCount [o]) s' ∧
      match o with
      | .cmd _ => True
      | .call _ c name => Answer s.heap c name r
      | .find c name => Answer s.heap c name r := by
  cases o with
  | cmd c =>
    refine ⟨?_, trivial⟩
    simp only [exec] at e
    rcases hr : c.run n s.heap with _ | h
    · rw [hr] at e; cases e
    · rw [hr] at e
      simp only [Option.some.injEq, Prod.mk.injEq] at e
      obtain ⟨rfl, _⟩ := e
      obtain ⟨n', kp, real⟩ := cmd_ns S.reach S.ns hp hr
      have R := c.run_reach S.reach hr
      have cnt := S.count
      rcases hb : c.bumps with _ | _
      · simp only [bumpCount, hb, Bool.false_eq_true, if_false, Nat.add_zero]
        have K := kp hb
        exact ⟨R, n', S.count, fun c' name' f' v e =>
          ⟨real _ (S.global _ _ _ _ e).1, (S.global _ _ _ _ e).2.1, fun hv => K.finds S.reach.good (S.global _ _ _ _ e).1 ((S.global _ _ _ _ e).2.2 hv)⟩,
          fun slot c' e => ⟨real _ (S.inline _ _ e).1, (S.inline _ _ e).2.1, fun hv => K.finds S.reach.good (S.inline _ _ e).1 ((S.inline _ _ e).2.2 hv)⟩⟩
      · simp only [bumpCount, hb, if_true, Nat.add_zero] at hk ⊢
        have hv : (s.version + 1).toNat = k + 1 := by
          rw [BitVec.toNat_add, cnt, show (1 : BitVec 32).toNat = 1 from rfl, Nat.mod_eq_of_lt hk]
        have old : ∀ v : BitVec 32, v.toNat ≤ k → v ≠ s.version + 1 := fun v hle e => by rw [e, hv] at hle; omega
        exact ⟨R, n', hv, fun c' name' f' v e =>
          ⟨real _ (S.global _ _ _ _ e).1, Nat.le_succ_of_le (S.global _ _ _ _ e).2.1, fun hv => absurd hv (old v (S.global _ _ _ _ e).2.1)⟩,
          fun slot c' e => ⟨real _ (S.inline _ _ e).1, Nat.le_succ_of_le (S.inline _ _ e).2.1, fun hv => absurd hv (old _ (S.inline _ _ e).2.1)⟩⟩
  | find c name =>
    simp only [exec] at e
    split at e
    · rename_i hc
      obtain ⟨S', _, _, _, a, _⟩ := findMethod_sound S (realB_iff.1 hc) e
      exact ⟨S', a⟩
    · cases e
  | call slot c name =>
    have hname := hn slot c name (by simp)
    subst hname
    simp only [exec] at e
    split at e
    · rename_i hc
      have hc := realB_iff.1 hc
      simp only [findInline] at e
      split at e
      · rename_i hit
        simp only [Option.some.injEq, Prod.mk.injEq] at e
        obtain ⟨rfl, rfl⟩ := e
        exact ⟨S, ((S.inline _ _ hit.2).2.2 hit.1.symm).answer S.reach.good hc⟩
      · rcases hf : findMethod n s c (nm slot) with _ | ⟨s₁, _ | f⟩
        · rw [hf] at e; cases e
        · rw [hf] at e
          simp only [Option.some.injEq, Prod.mk.injEq] at e
          obtain ⟨rfl, rfl⟩ := e
          obtain ⟨S', _, _, _, a, _⟩ := findMethod_sound S hc hf
          exact ⟨S', a⟩
        · rw [hf] at e
          simp only [Option.some.injEq, Prod.mk.injEq] at e
          obtain ⟨rfl, rfl⟩ := e
          obtain ⟨S', h1, h2, _, a, F⟩ := findMethod_sound S hc hf
          refine ⟨⟨S'.reach, S'.ns, S'.count, S'.global, fun slot' c' e => ?_⟩, a⟩
          by_cases hs : slot' = slot
          · subst hs
            simp only [upd, if_true] at e ⊢
            cases e
            rw [h1]
            exact ⟨hc, Nat.le_of_eq S.count, fun _ => F f rfl⟩
          · simp only [upd, if_neg hs] at e ⊢
            exact S'.inline _ _ e
    · cases e

theorem bumpCount_cons (o : Op) (os : List Op) : bumpCount (o :: os) = bumpCount [o] + bumpCount os := by
  cases o <;> simp [bumpCount]

theorem execAll_sound {nm n} : ∀ {os k s s'}, Sound nm k s → AllPlain n s os → OneName nm os → k + bumpCount os < 2 ^ 32 →
    execAll n s os = some s' → Sound nm (k + bumpCount os) s'
  | [], k, s, s', S, _, _, _, e => by cases e; exact S
  | o :: os, k, s, s', S, hp, hn, hk, e => by
    rw [bumpCount_cons] at hk ⊢
    rw [execAll] at e
    split at e
    · cases e
    · rename_i s₁ r hs
      obtain ⟨S', _⟩ := exec_sound S hp.1 (fun a b c h => hn a b c (by simp at h; simp [h])) (by omega) hs
      rw [← Nat.add_assoc]
      exact execAll_sound S' (hp.2 _ _ hs) (fun a b c h => hn a b c (by simp [h])) (by omega) e

end Verif.Class
