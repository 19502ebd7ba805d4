import Verif.Copy.Model
/-!
# C116: Objects made and copied are separate
-/
namespace Verif.Copy

/-! ## Specification -/

/-- What a program sees of an object besides its class and instance variables. -/
inductive Contents where
  | plain
  | number (n : Int)
  | complex (r i : Int)
  | text (b : List UInt8)
  | items (l : List V)
  | entries (l : List (V × V))
  | methods (upper : Option Nat) (l : List Nat)
  | progress (n : Nat)
  deriving DecidableEq

/-- What a program sees of an object. -/
structure View where
  kind : Kind
  cls : Nat
  ivars : List (Nat × V)
  contents : Contents
  deriving DecidableEq

def contentsOf (h : Heap) (o : Obj) : Option Contents :=
  match o.kind, o.body with
  | .ordinary, _ => some .plain
  | .number, .number n => some (.number n)
  | .complex, .complex r i =>
    match numOf h r, numOf h i with
    | some r, some i => some (.complex r i)
    | _, _ => none
  | .string, .box p => match h.bufs[p]? with | some (.bytes b) => some (.text b) | _ => none
  | .array, .box p => match h.bufs[p]? with | some (.items b) => some (.items b) | _ => none
  | .hash, .box p => match h.bufs[p]? with | some (.entries b) => some (.entries b) | _ => none
  | .module, .classInfo u p => match h.bufs[p]? with | some (.ext b) => some (.methods u b) | _ => none
  | .fiber, .box p => match h.bufs[p]? with | some (.coroutine b) => some (.progress b) | _ => none
  | _, _ => none

def ivarsOf (h : Heap) : Option Nat → Option (List (Nat × V))
  | none => some []
  | some p => match h.bufs[p]? with | some (.vars l) => some l | _ => none

/-- The object at an address as a program sees it; nothing if there is none, or if looking at it would read memory that was
never written. -/
def view (h : Heap) (a : Nat) : Option View :=
  match h.objs[a]? with
  | none => none
  | some o =>
    match ivarsOf h o.vars, contentsOf h o with
    | some l, some c => some ⟨o.kind, o.cls, l, c⟩
    | _, _ => none

/-- What an object looks like after an operation on it. -/
def written : Op → View → View
  | .push _ v, w => match w.contents with | .items l => { w with contents := .items (l ++ [v]) } | _ => w
  | .append _ b, w => match w.contents with | .text l => { w with contents := .text (l ++ b) } | _ => w
  | .store _ k v, w => match w.contents with | .entries l => { w with contents := .entries (insert k v l) } | _ => w
  | .ivarSet _ x v, w => { w with ivars := setVar x v w.ivars }
  | .define _ m, w => match w.contents with | .methods u l => { w with contents := .methods u (l ++ [m]) } | _ => w
  | .resume _, w => match w.contents with | .progress n => { w with contents := .progress (n + 1) } | _ => w
  | _, w => w

/-- The operation is not `c.dup` of a class or module `c`. -/
def NoClassCopy (h : Heap) (op : Op) : Prop :=
  ∀ a, op = .dup (.ref a) → ∀ w, view h a = some w → w.kind ≠ .module

/-- The heaps of a program: every history of operations leads to one.  With `strict`, no class is copied in it. -/
inductive Reach (strict : Bool) : Heap → Prop
  | start : Reach strict ⟨[], []⟩
  | step {h h' op v} : Reach strict h → (strict = true → NoClassCopy h op) → step h op = .ok (h', v) → Reach strict h'

/-! ## Helpers -/

/-- The allocations of an object, without the tables of classes. -/
def Obj.own (o : Obj) : List Nat :=
  (match o.vars with | some p => [p] | none => []) ++ (match o.body with | .box p => [p] | _ => [])

/-- The tables of a class. -/
def Obj.tables (o : Obj) : List Nat :=
  match o.body with | .classInfo _ p => [p] | _ => []

def Obj.ptrs (strict : Bool) (o : Obj) : List Nat := o.own ++ if strict then o.tables else []

structure Typed (h : Heap) (o : Obj) : Prop where
  vars : ∀ p, o.vars = some p → ∃ l, h.bufs[p]? = some (.vars l)
  body : (o.kind = .fiber ∧ o.body = .other) ∨ ∃ c, contentsOf h o = some c

structure Sep (s : Bool) (h : Heap) : Prop where
  excl : ∀ (i j : Nat) oi oj p, h.objs[i]? = some oi → h.objs[j]? = some oj → p ∈ oi.ptrs s → p ∈ oj.ptrs s → i = j
  typed : ∀ (i : Nat) o, h.objs[i]? = some o → Typed h o
  /-- an ordinary object has no body -/
  plain : ∀ (i : Nat) o, h.objs[i]? = some o → o.kind = .ordinary → o.body = .other

/-- `h'` has the objects of `h`, perhaps with more instance variables. -/
def Grow (h h' : Heap) : Prop :=
  ∀ (a : Nat) o, h.objs[a]? = some o → ∃ o', h'.objs[a]? = some o' ∧ o'.kind = o.kind ∧ o'.cls = o.cls ∧ o'.body = o.body

theorem Grow.refl (h : Heap) : Grow h h := fun _ o e => ⟨o, e, rfl, rfl, rfl⟩

theorem Grow.trans {h h' h'' : Heap} (g : Grow h h') (g' : Grow h' h'') : Grow h h'' := by
  intro a o e
  obtain ⟨o', e', k, c, b⟩ := g a o e
  obtain ⟨o2, e2, k2, c2, b2⟩ := g' a o' e'
  exact ⟨o2, e2, k2.trans k, c2.trans c, b2.trans b⟩

theorem numOf_grow {h h' : Heap} (g : Grow h h') {v : V} {n : Int} (e : numOf h v = some n) : numOf h' v = some n := by
  cases v with
  | nil => exact e
  | imm m => exact e
  | ref a =>
    simp only [numOf] at e ⊢
    split at e
    · rename_i c vs m ho
      obtain ⟨⟨k', c', v', b'⟩, e', rfl, _, rfl⟩ := g a _ ho
      rw [e']; exact e
    · cases e

/-- What is seen of an object depends on its allocations only. -/
theorem contents_same {h h' : Heap} (g : Grow h h') {o o' : Obj} (hk : o'.kind = o.kind) (hb : o'.body = o.body)
    (hp : ∀ p, o.body = .box p → h'.bufs[p]? = h.bufs[p]?)
    (ht : ∀ u p, o.body = .classInfo u p → h'.bufs[p]? = h.bufs[p]?) {c : Contents} (e : contentsOf h o = some c) :
    contentsOf h' o' = some c := by
  obtain ⟨k, cl, v, b⟩ := o
  obtain ⟨k', cl', v', b'⟩ := o'
  simp only at hk hb hp ht
  subst hk; subst hb
  cases k' <;> cases b' <;> simp only [contentsOf] at e ⊢ <;> try exact e
  · rename_i r i
    cases hr : numOf h r with
    | none => simp [hr] at e
    | some r' =>
      cases hi : numOf h i with
      | none => simp [hr, hi] at e
      | some i' =>
        rw [numOf_grow g hr, numOf_grow g hi]
        simpa [hr, hi] using e
  all_goals first | (rw [hp _ rfl]; exact e) | (rw [ht _ _ rfl]; exact e)

theorem typed_same {h h' : Heap} (g : Grow h h') {o : Obj} (T : Typed h o)
    (hp : ∀ p ∈ o.ptrs true, h'.bufs[p]? = h.bufs[p]?) : Typed h' o := by
  constructor
  · intro p e
    obtain ⟨l, hl⟩ := T.vars p e
    exact ⟨l, by rw [hp p (by simp [Obj.ptrs, Obj.own, e])]; exact hl⟩
  · rcases T.body with b | ⟨c, b⟩
    · exact .inl b
    · exact .inr ⟨c, contents_same g rfl rfl (fun p e => hp p (by simp [Obj.ptrs, Obj.own, e]))
        (fun u p e => hp p (by simp [Obj.ptrs, Obj.tables, e])) b⟩

/-- Addresses of allocations are in use. -/
theorem Typed.lt {h : Heap} {o : Obj} (T : Typed h o) (hpl : o.kind = .ordinary → o.body = .other) {p : Nat} (hp : p ∈ o.ptrs true) :
    p < h.bufs.length := by
  simp only [Obj.ptrs, Obj.own, if_true, List.mem_append] at hp
  rcases hp with (hp | hp) | hp
  · split at hp
    · rename_i q e
      simp only [List.mem_singleton] at hp
      subst hp
      obtain ⟨l, hl⟩ := T.vars _ e
      exact (List.getElem?_eq_some_iff.mp hl).1
    · simp at hp
  · split at hp
    · rename_i q e
      simp only [List.mem_singleton] at hp
      subst hp
      rcases T.body with b | ⟨c, b⟩
      · rw [b.2] at e; cases e
      · cases hl : h.bufs[p]? with
        | some _ => exact (List.getElem?_eq_some_iff.mp hl).1
        | none =>
          obtain ⟨k, cl, v, bd⟩ := o
          simp only at e; subst e
          cases k <;> simp [contentsOf, hl] at b
          simp at hpl
    · simp at hp
  · simp only [Obj.tables] at hp
    split at hp
    · rename_i u q e
      simp only [List.mem_singleton] at hp
      subst hp
      rcases T.body with b | ⟨c, b⟩
      · rw [b.2] at e; cases e
      · cases hl : h.bufs[p]? with
        | some _ => exact (List.getElem?_eq_some_iff.mp hl).1
        | none =>
          obtain ⟨k, cl, v, bd⟩ := o
          simp only at e; subst e
          cases k <;> simp [contentsOf, hl] at b
          simp at hpl
    · simp at hp

theorem Obj.ptrs_sub {s : Bool} {o : Obj} {p : Nat} (hp : p ∈ o.ptrs s) : p ∈ o.ptrs true := by
  cases s <;> simp_all [Obj.ptrs]

/-- `h'` has the objects and allocations of `h` and perhaps more. -/
structure More (h h' : Heap) : Prop where
  objs : ∀ (a : Nat) o, h.objs[a]? = some o → h'.objs[a]? = some o
  bufs : ∀ (p : Nat) b, h.bufs[p]? = some b → h'.bufs[p]? = some b

theorem More.refl (h : Heap) : More h h := ⟨fun _ _ e => e, fun _ _ e => e⟩
theorem More.trans {h h' h'' : Heap} (m : More h h') (m' : More h' h'') : More h h'' :=
  ⟨fun a o e => m'.objs a o (m.objs a o e), fun a o e => m'.bufs a o (m.bufs a o e)⟩
theorem More.grow {h h' : Heap} (m : More h h') : Grow h h' := fun a o e => ⟨o, m.objs a o e, rfl, rfl, rfl⟩

theorem get_app {α : Type} {l m : List α} {i : Nat} {x : α} (e : l[i]? = some x) : (l ++ m)[i]? = some x := by
  rw [List.getElem?_append_left (List.getElem?_eq_some_iff.mp e).1]; exact e

theorem More.box (h : Heap) (b : Buf) : More h (h.box b) := ⟨fun _ _ e => e, fun _ _ e => get_app e⟩
theorem More.pack (h : Heap) (o : Obj) : More h (h.pack o) := ⟨fun _ _ e => get_app e, fun _ _ e => e⟩

theorem More.contents {h h' : Heap} (m : More h h') {o : Obj} {c : Contents} (e : contentsOf h o = some c) :
    contentsOf h' o = some c := by
  obtain ⟨k, cl, v, b⟩ := o
  cases k <;> cases b <;> simp only [contentsOf] at e ⊢ <;> try exact e
  · rename_i r i
    cases hr : numOf h r with
    | none => simp [hr] at e
    | some r' =>
      cases hi : numOf h i with
      | none => simp [hr, hi] at e
      | some i' =>
        rw [numOf_grow m.grow hr, numOf_grow m.grow hi]
        simpa [hr, hi] using e
  all_goals
    rename_i p
    cases hl : h.bufs[p]? with
    | none => simp [hl] at e
    | some bb => rw [m.bufs _ _ hl]; simpa [hl] using e

theorem More.typed {h h' : Heap} (m : More h h') {o : Obj} (T : Typed h o) : Typed h' o :=
  ⟨fun p e => let ⟨l, hl⟩ := T.vars p e; ⟨l, m.bufs _ _ hl⟩,
   T.body.imp id (fun ⟨c, hc⟩ => ⟨c, m.contents hc⟩)⟩

theorem More.view {h h' : Heap} (m : More h h') {a : Nat} {w : View} (e : view h a = some w) : view h' a = some w := by
  unfold Verif.Copy.view at e ⊢
  cases ho : h.objs[a]? with
  | none => simp [ho] at e
  | some o =>
    rw [m.objs _ _ ho]
    simp only [ho] at e ⊢
    cases hv : ivarsOf h o.vars with
    | none => simp [hv] at e
    | some l =>
      cases hc : contentsOf h o with
      | none => simp [hv, hc] at e
      | some c =>
        have : ivarsOf h' o.vars = some l := by
          cases hp : o.vars with
          | none => rw [hp] at hv; exact hv
          | some p =>
            simp only [hp, ivarsOf] at hv ⊢
            cases hl : h.bufs[p]? with
            | none => simp [hl] at hv
            | some b => rw [m.bufs _ _ hl]; simpa [hl] using hv
        rw [this, m.contents hc]
        simpa [hv, hc] using e

theorem Sep.empty (s : Bool) : Sep s ⟨[], []⟩ := by
  constructor <;> simp

theorem Sep.box {s : Bool} {h : Heap} (S : Sep s h) (b : Buf) : Sep s (h.box b) :=
  ⟨fun i j oi oj p e e' => S.excl i j oi oj p e e', fun i o e => (More.box h b).typed (S.typed i o e), S.plain⟩

/-- A new object with allocations of its own. -/
theorem Sep.pack {s : Bool} {h : Heap} (S : Sep s h) {o : Obj} (T : Typed h o) (hpl : o.kind = .ordinary → o.body = .other)
    (hf : ∀ p ∈ o.ptrs s, ∀ (i : Nat) oi, h.objs[i]? = some oi → p ∉ oi.ptrs s) : Sep s (h.pack o) := by
  have cases_of : ∀ {i : Nat} {x : Obj}, (h.pack o).objs[i]? = some x → h.objs[i]? = some x ∨ (i = h.objs.length ∧ x = o) := by
    intro i x e
    simp only [Heap.pack] at e
    rw [List.getElem?_append] at e
    split at e
    · exact .inl e
    · rename_i hlt
      right
      have : i - h.objs.length = 0 := by
        rcases Nat.eq_zero_or_pos (i - h.objs.length) with hz | hz
        · exact hz
        · rw [List.getElem?_eq_none (by simp; omega)] at e
          cases e
      rw [this] at e
      simp only [List.getElem?_cons_zero, Option.some.injEq] at e
      exact ⟨by omega, e.symm⟩
  constructor
  · intro i j oi oj p e e' hp hp'
    rcases cases_of e with e1 | ⟨h1, h2⟩ <;> rcases cases_of e' with e2 | ⟨h3, h4⟩
    · exact S.excl i j oi oj p e1 e2 hp hp'
    · exact absurd hp (hf p (h4 ▸ hp') i oi e1)
    · exact absurd hp' (hf p (h2 ▸ hp) j oj e2)
    · rw [h1, h3]
  · intro i x e
    rcases cases_of e with e | ⟨rfl, rfl⟩
    · exact (More.pack h o).typed (S.typed i x e)
    · exact (More.pack h x).typed T
  · intro i x e
    rcases cases_of e with e | ⟨rfl, rfl⟩
    · exact S.plain i x e
    · exact hpl

theorem Sep.fresh {s : Bool} {h : Heap} (S : Sep s h) {p : Nat} (hp : h.bufs.length ≤ p) (i : Nat) (oi : Obj)
    (e : h.objs[i]? = some oi) : p ∉ oi.ptrs s := fun hm => by
  have := (S.typed i oi e).lt (S.plain i oi e) (Obj.ptrs_sub hm)
  omega

/-! ### Making -/

/-- What an operation that makes an object does. -/
structure Made (s : Bool) (h h' : Heap) (a : Nat) : Prop where
  more : More h h'
  sep : Sep s h'
  free : h.objs.length ≤ a
  there : ∃ o, h'.objs[a]? = some o

theorem pack_there (h : Heap) (o : Obj) : (h.pack o).objs[h.objs.length]? = some o := by simp [Heap.pack]

/-- One allocation and one object that has it. -/
theorem made_box {s : Bool} {h : Heap} (S : Sep s h) (b : Buf) (k : Kind) (c : Nat) (bd : Body)
    (hb : bd = .box h.bufs.length ∨ ∃ u, bd = .classInfo u h.bufs.length) (hk : k ≠ .ordinary)
    (hc : ∃ x, contentsOf (h.box b) ⟨k, c, none, bd⟩ = some x) :
    Made s h ((h.box b).pack ⟨k, c, none, bd⟩) h.objs.length := by
  refine ⟨(More.box h b).trans (More.pack _ _), (S.box b).pack ⟨by simp, .inr hc⟩ (fun e => absurd e hk) ?_, Nat.le_refl _,
    _, pack_there (h.box b) _⟩
  intro p hp i oi e
  refine S.fresh ?_ i oi e
  rcases hb with rfl | ⟨u, rfl⟩ <;> cases s <;> simp [Obj.ptrs, Obj.own, Obj.tables] at hp <;> omega

theorem made_flat {s : Bool} {h : Heap} (S : Sep s h) (k : Kind) (c : Nat) (bd : Body)
    (hb : Obj.ptrs true ⟨k, c, none, bd⟩ = []) (hk : k = .ordinary → bd = .other)
    (hc : ∃ x, contentsOf h ⟨k, c, none, bd⟩ = some x) :
    Made s h (h.pack ⟨k, c, none, bd⟩) h.objs.length := by
  refine ⟨More.pack _ _, S.pack ⟨by simp, .inr hc⟩ hk ?_, Nat.le_refl _, _, pack_there h _⟩
  intro p hp
  have := Obj.ptrs_sub hp
  rw [hb] at this; simp at this

theorem cloneBox_ok {h h' : Heap} {p q : Nat} (e : h.cloneBox p = .ok (h', q)) :
    ∃ b, h.bufs[p]? = some b ∧ h' = h.box b ∧ q = h.bufs.length := by
  unfold Heap.cloneBox at e
  split at e
  · rename_i b hb
    simp only [Except.ok.injEq, Prod.mk.injEq] at e
    exact ⟨b, hb, e.1.symm, e.2.symm⟩
  · cases e

theorem box_there (h : Heap) (b : Buf) : (h.box b).bufs[h.bufs.length]? = some b := by simp [Heap.box]

theorem cloneVars_ok {h h' : Heap} {v v' : Option Nat} (e : cloneVars h v = .ok (h', v')) :
    (v = none ∧ v' = none ∧ h' = h) ∨
    ∃ p b, v = some p ∧ h.bufs[p]? = some b ∧ h' = h.box b ∧ v' = some h.bufs.length := by
  cases v with
  | none => simp only [cloneVars, Except.ok.injEq, Prod.mk.injEq] at e; exact .inl ⟨rfl, e.2.symm, e.1.symm⟩
  | some p =>
    simp only [cloneVars] at e
    cases hc : h.cloneBox p with
    | error x => rw [hc] at e; cases e
    | ok r =>
      obtain ⟨h1, q⟩ := r
      rw [hc] at e
      simp only [Except.map, Except.ok.injEq, Prod.mk.injEq] at e
      obtain ⟨b, h1, h2, h3⟩ := cloneBox_ok hc
      exact .inr ⟨p, b, rfl, h1, e.1.symm.trans h2, by rw [← e.2, h3]⟩

/-- What a copy of the cell is like. -/
structure Copied (s : Bool) (h h1 : Heap) (o o1 : Obj) : Prop where
  more : More h h1
  sep : Sep s h1
  objs : h1.objs = h.objs
  kind : o1.kind = o.kind
  cls : o1.cls = o.cls
  typed : Typed h1 o1
  plain : o1.kind = .ordinary → o1.body = .other
  ivars : ivarsOf h1 o1.vars = ivarsOf h o.vars
  contents : o.kind ≠ .fiber → contentsOf h1 o1 = contentsOf h o
  fresh : ∀ p ∈ o1.ptrs s, h.bufs.length ≤ p

theorem More.length {h h' : Heap} (m : More h h') : h.bufs.length ≤ h'.bufs.length := by
  rcases Nat.lt_or_ge h'.bufs.length h.bufs.length with hlt | hge
  · have := m.bufs h'.bufs.length (h.bufs[h'.bufs.length]) (by simp [hlt])
    simp at this
  · exact hge

/-- The instance variables are copied. -/
theorem cloneVars_spec {s : Bool} {h h1 : Heap} {v v' : Option Nat} (S : Sep s h)
    (hv : ∀ p, v = some p → ∃ l, h.bufs[p]? = some (.vars l)) (e : cloneVars h v = .ok (h1, v')) :
    More h h1 ∧ Sep s h1 ∧ h1.objs = h.objs ∧ (∀ p, v' = some p → ∃ l, h1.bufs[p]? = some (.vars l)) ∧
    ivarsOf h1 v' = ivarsOf h v ∧ (∀ p, v' = some p → h.bufs.length ≤ p) := by
  rcases cloneVars_ok e with ⟨rfl, rfl, rfl⟩ | ⟨p, b, rfl, hb, rfl, rfl⟩
  · exact ⟨More.refl _, S, rfl, by simp, rfl, by simp⟩
  · obtain ⟨l, hl⟩ := hv p rfl
    rw [hb] at hl
    cases hl
    refine ⟨More.box _ _, S.box _, rfl, ?_, ?_, ?_⟩
    · intro q hq
      cases hq
      exact ⟨l, box_there h _⟩
    · simp only [ivarsOf, box_there, hb]
    · intro q hq; cases hq; exact Nat.le_refl _

theorem dupFlat_spec {s : Bool} {h h1 : Heap} {o o1 : Obj} (S : Sep s h) (T : Typed h o)
    (hm : s = true → o.kind ≠ .module) (e : dupFlat h o = .ok (h1, o1)) : Copied s h h1 o o1 := by
  unfold dupFlat at e
  cases hv : cloneVars h o.vars with
  | error x => rw [hv] at e; cases e
  | ok r =>
    obtain ⟨h2, vs⟩ := r
    obtain ⟨m2, S2, ho2, tv2, iv2, fv2⟩ := cloneVars_spec S T.vars hv
    rw [hv] at e
    obtain ⟨k, c, v, bd⟩ := o
    have flat : ∀ bd', Obj.own ⟨k, c, none, bd'⟩ = [] → (s = true → Obj.tables ⟨k, c, none, bd'⟩ = []) →
        (k = .ordinary → bd' = .other) →
        ((k = .fiber ∧ bd' = .other) ∨ (contentsOf h2 ⟨k, c, vs, bd'⟩ = contentsOf h ⟨k, c, v, bd⟩ ∧
          ∃ x, contentsOf h ⟨k, c, v, bd⟩ = some x)) →
        Copied s h h2 ⟨k, c, v, bd⟩ ⟨k, c, vs, bd'⟩ := by
      intro bd' h1 h2' h3 h4
      refine ⟨m2, S2, ho2, rfl, rfl, ⟨tv2, ?_⟩, h3, iv2, ?_, ?_⟩
      · rcases h4 with h4 | ⟨h4, x, h5⟩
        · exact .inl h4
        · exact .inr ⟨x, by rw [h4]; exact h5⟩
      · intro hk
        rcases h4 with h4 | h4
        · exact absurd h4.1 hk
        · exact h4.1
      · intro p hp
        simp only [Obj.ptrs, Obj.own, List.nil_append] at hp h1
        simp only [Obj.tables] at hp h2'
        simp only [h1, List.append_nil, List.mem_append] at hp
        rcases hp with hp | hp
        · split at hp
          · rename_i q
            simp only [List.mem_singleton] at hp
            subst hp
            exact fv2 _ rfl
          · simp at hp
        · cases s
          · simp at hp
          · rw [if_pos rfl, h2' rfl] at hp; simp at hp
    have boxed : ∀ {p : Nat} {h3 : Heap} {q : Nat}, bd = .box p → (k = .string ∨ k = .array ∨ k = .hash) →
        h2.cloneBox p = .ok (h3, q) → Copied s h h3 ⟨k, c, v, bd⟩ ⟨k, c, vs, .box q⟩ := by
      rintro p h3 q rfl hk hq
      obtain ⟨b, hb, rfl, rfl⟩ := cloneBox_ok hq
      have hcont : contentsOf h ⟨k, c, v, .box p⟩ = contentsOf (h2.box b) ⟨k, c, vs, .box h2.bufs.length⟩ := by
        rcases T.body with hx | ⟨x, hx⟩
        · rcases hk with rfl | rfl | rfl <;> cases hx.1
        · have hx2 : contentsOf h2 ⟨k, c, v, .box p⟩ = some x := m2.contents hx
          rw [hx]
          rcases hk with rfl | rfl | rfl <;> simp only [contentsOf, box_there, hb] at hx2 ⊢ <;> exact hx2.symm
      refine ⟨m2.trans (More.box _ _), S2.box _, ho2, rfl, rfl, ⟨?_, ?_⟩, ?_, ?_, fun _ => hcont.symm, ?_⟩
      · intro q hq
        obtain ⟨l, hl⟩ := tv2 q hq
        exact ⟨l, (More.box h2 b).bufs _ _ hl⟩
      · rcases T.body with hx | ⟨x, hx⟩
        · rcases hk with rfl | rfl | rfl <;> cases hx.1
        · exact .inr ⟨x, by rw [← hcont]; exact hx⟩
      · intro hk'
        rcases hk with rfl | rfl | rfl <;> cases hk'
      · rw [← iv2]
        cases vs with
        | none => rfl
        | some q =>
          obtain ⟨l, hl⟩ := tv2 q rfl
          simp only [ivarsOf, hl, (More.box h2 b).bufs _ _ hl]
      · intro q hq
        have hle := m2.length
        simp only [Obj.ptrs, Obj.own, Obj.tables, List.mem_append] at hq
        rcases hq with (hq | hq) | hq
        · split at hq
          · simp only [List.mem_singleton] at hq
            subst hq
            exact fv2 _ rfl
          · simp at hq
        · simp only [List.mem_singleton] at hq
          omega
        · cases s <;> simp at hq
    have hbody := T.body
    cases k <;> cases bd <;> simp only [bind, Except.bind, reduceCtorEq, Except.ok.injEq, Prod.mk.injEq] at e
    all_goals first
      | (obtain ⟨rfl, rfl⟩ := e
         refine flat _ rfl (fun hs => ?_) (by simp) ?_
         · first | rfl | exact absurd rfl (hm hs)
         · first
           | exact .inl ⟨rfl, rfl⟩
           | exact .inr ⟨rfl, _, rfl⟩
           | (rcases hbody with hx | ⟨x, hx⟩
              · cases hx.1
              · exact .inr ⟨(m2.contents (o := ⟨_, c, vs, _⟩) hx).trans hx.symm, x, hx⟩))
      | (rename_i p
         cases hq : h2.cloneBox p with
         | error x => rw [hq] at e; cases e
         | ok r =>
           obtain ⟨h3, q⟩ := r
           rw [hq] at e
           simp only [Except.ok.injEq, Prod.mk.injEq] at e
           obtain ⟨rfl, rfl⟩ := e
           exact boxed rfl (by simp) hq)

def Unowned (s : Bool) (h : Heap) (p : Nat) : Prop := ∀ (i : Nat) oi, h.objs[i]? = some oi → p ∉ oi.ptrs s

theorem pack_cases {h : Heap} {o : Obj} {i : Nat} {x : Obj} (e : (h.pack o).objs[i]? = some x) :
    h.objs[i]? = some x ∨ (i = h.objs.length ∧ x = o) := by
  simp only [Heap.pack] at e
  rw [List.getElem?_append] at e
  split at e
  · exact .inl e
  · rename_i hlt
    right
    have : i - h.objs.length = 0 := by
      rcases Nat.eq_zero_or_pos (i - h.objs.length) with hz | hz
      · exact hz
      · rw [List.getElem?_eq_none (by simp; omega)] at e
        cases e
    rw [this] at e
    simp only [List.getElem?_cons_zero, Option.some.injEq] at e
    exact ⟨by omega, e.symm⟩

theorem Copied.pack {s : Bool} {h h1 : Heap} {o o1 : Obj} (C : Copied s h h1 o o1) (S : Sep s h) : Made s h (h1.pack o1) h1.objs.length := by
  refine ⟨C.more.trans (More.pack _ _), C.sep.pack C.typed C.plain ?_, by rw [C.objs]; exact Nat.le_refl _, _, pack_there _ _⟩
  intro p hp i oi e
  rw [C.objs] at e
  exact S.fresh (C.fresh p hp) i oi e

theorem dupPart_spec {s : Bool} {h h1 : Heap} {v v1 : V} {n : Int} (S : Sep s h) (hn : numOf h v = some n)
    (e : dupPart h v = .ok (h1, v1)) : More h h1 ∧ Sep s h1 ∧ numOf h1 v1 = some n ∧ h.objs.length ≤ h1.objs.length ∧
      ∀ p, p < h.bufs.length → Unowned s h p → Unowned s h1 p := by
  cases v with
  | nil => simp [numOf] at hn
  | imm m =>
    simp only [dupPart, Except.ok.injEq, Prod.mk.injEq] at e
    obtain ⟨rfl, rfl⟩ := e
    exact ⟨More.refl _, S, hn, Nat.le_refl _, fun _ _ h => h⟩
  | ref a =>
    simp only [dupPart] at e
    cases ho : h.objs[a]? with
    | none => simp [ho] at e
    | some o =>
      simp only [ho] at e
      cases hd : dupFlat h o with
      | error x => rw [hd] at e; cases e
      | ok r =>
        obtain ⟨h2, o2⟩ := r
        rw [hd] at e
        simp only [bind, Except.bind, Except.ok.injEq, Prod.mk.injEq] at e
        obtain ⟨rfl, rfl⟩ := e
        have hk : o.kind = .number ∧ o.body = .number n := by
          simp only [numOf, ho] at hn
          split at hn
          · rename_i c vs m hc
            simp only [Option.some.injEq] at hc hn
            subst hc; subst hn
            exact ⟨rfl, rfl⟩
          · cases hn
        have C := dupFlat_spec S (S.typed a o ho) (fun _ => by rw [hk.1]; nofun) hd
        have M := C.pack S
        have hc : contentsOf h2 o2 = some (.number n) := by
          rw [C.contents (by rw [hk.1]; nofun)]
          obtain ⟨k, c, vs, bd⟩ := o
          simp only at hk
          obtain ⟨rfl, rfl⟩ := hk
          rfl
        refine ⟨M.more, M.sep, ?_, by simp [Heap.pack, C.objs], ?_⟩
        · simp only [numOf, pack_there]
          have h2k := C.kind
          obtain ⟨k, c, vs, bd⟩ := o2
          simp only [hk.1] at h2k
          subst h2k
          cases bd <;> simp [contentsOf] at hc
          subst hc; rfl
        · intro p hp hu i oi ei
          rcases pack_cases ei with ei | ⟨_, rfl⟩
          · rw [C.objs] at ei; exact hu i oi ei
          · intro hm
            have := C.fresh p hm
            omega

/-- `view` from its parts. -/
theorem view_of {h : Heap} {a : Nat} {o : Obj} {l : List (Nat × V)} {c : Contents} (ho : h.objs[a]? = some o)
    (hl : ivarsOf h o.vars = some l) (hc : contentsOf h o = some c) : view h a = some ⟨o.kind, o.cls, l, c⟩ := by
  simp only [view, ho, hl, hc]

theorem view_parts {h : Heap} {a : Nat} {w : View} (e : view h a = some w) :
    ∃ o l c, h.objs[a]? = some o ∧ ivarsOf h o.vars = some l ∧ contentsOf h o = some c ∧ w = ⟨o.kind, o.cls, l, c⟩ := by
  unfold view at e
  cases ho : h.objs[a]? with
  | none => simp [ho] at e
  | some o =>
    simp only [ho] at e
    cases hl : ivarsOf h o.vars with
    | none => simp [hl] at e
    | some l =>
      cases hc : contentsOf h o with
      | none => simp [hl, hc] at e
      | some c =>
        simp only [hl, hc, Option.some.injEq] at e
        exact ⟨o, l, c, rfl, hl, hc, e.symm⟩

theorem More.ivars {h h' : Heap} (m : More h h') {v : Option Nat} {l : List (Nat × V)} (e : ivarsOf h v = some l) :
    ivarsOf h' v = some l := by
  cases v with
  | none => exact e
  | some p =>
    simp only [ivarsOf] at e ⊢
    cases hl : h.bufs[p]? with
    | none => simp [hl] at e
    | some b => rw [m.bufs _ _ hl]; simpa [hl] using e

theorem shallowDup_spec {s : Bool} {h h' : Heap} {a : Nat} {o : Obj} {v : V} (S : Sep s h) (ho : h.objs[a]? = some o)
    (hm : s = true → o.kind ≠ .module) (e : shallowDup h o = .ok (h', v)) :
    ∃ a', v = .ref a' ∧ Made s h h' a' ∧ (o.kind ≠ .fiber → ∀ w, view h a = some w → view h' a' = some w) := by
  have T := S.typed a o ho
  unfold shallowDup at e
  split at e
  · rename_i r i hk hbd
    cases hv : cloneVars h o.vars with
    | error x => rw [hv] at e; cases e
    | ok r1 =>
      obtain ⟨h1, vs⟩ := r1
      obtain ⟨m1, S1, ho1, tv1, iv1, fv1⟩ := cloneVars_spec S T.vars hv
      rw [hv] at e
      have hx : ∃ nr ni, numOf h r = some nr ∧ numOf h i = some ni := by
        rcases T.body with hx | ⟨x, hx⟩
        · rw [hk] at hx; cases hx.1
        · obtain ⟨k, c, vs', bd⟩ := o
          simp only at hk hbd
          subst hk; subst hbd
          simp only [contentsOf] at hx
          split at hx
          · rename_i nr ni h1 h2
            exact ⟨nr, ni, h1, h2⟩
          · cases hx
      obtain ⟨nr, ni, hr, hi⟩ := hx
      simp only [bind, Except.bind] at e
      cases hd : dupPart h1 r with
      | error x => rw [hd] at e; cases e
      | ok r2 =>
        obtain ⟨h2, r'⟩ := r2
        rw [hd] at e
        obtain ⟨m2, S2, n2, l2, u2⟩ := dupPart_spec S1 (numOf_grow m1.grow hr) hd
        simp only at e
        cases hd' : dupPart h2 i with
        | error x => rw [hd'] at e; cases e
        | ok r3 =>
          obtain ⟨h3, i'⟩ := r3
          rw [hd'] at e
          simp only [Except.ok.injEq, Prod.mk.injEq] at e
          obtain ⟨rfl, rfl⟩ := e
          obtain ⟨m3, S3, n3, l3, u3⟩ := dupPart_spec S2 (numOf_grow (m1.trans m2).grow hi) hd'
          have m13 := m1.trans (m2.trans m3)
          have hcont : contentsOf h3 ⟨.complex, o.cls, vs, .complex r' i'⟩ = some (.complex nr ni) := by
            simp only [contentsOf, numOf_grow m3.grow n2, n3]
          refine ⟨_, rfl, ⟨m13.trans (More.pack _ _), S3.pack ⟨?_, .inr ⟨_, hcont⟩⟩ nofun ?_, ?_, _, pack_there _ _⟩, ?_⟩
          · intro p hp
            obtain ⟨l, hl⟩ := tv1 p hp
            exact ⟨l, (m2.trans m3).bufs _ _ hl⟩
          · intro p hp
            have hp' : vs = some p := by
              cases vs <;> cases s <;> simp [Obj.ptrs, Obj.own, Obj.tables] at hp ⊢ <;> exact hp.symm
            obtain ⟨l, hl⟩ := tv1 p hp'
            have lt1 : p < h1.bufs.length := (List.getElem?_eq_some_iff.mp hl).1
            have lt2 : p < h2.bufs.length := Nat.lt_of_lt_of_le lt1 m2.length
            refine u3 p lt2 (u2 p lt1 ?_)
            intro j oj ej
            rw [ho1] at ej
            exact S.fresh (fv1 p hp') j oj ej
          · rw [ho1] at l2; omega
          · intro _ w hw
            obtain ⟨o', l, c, h1', h2', h3', rfl⟩ := view_parts hw
            rw [ho] at h1'
            cases h1'
            have hc : c = .complex nr ni := by
              obtain ⟨k, cl, vs', bd⟩ := o
              simp only at hk hbd
              subst hk; subst hbd
              simpa [contentsOf, hr, hi] using h3'.symm
            subst hc
            rw [view_of (pack_there _ _) ((m2.trans (m3.trans (More.pack _ _))).ivars (iv1.trans h2'))
              ((More.pack _ _).contents hcont), hk]
  · cases hd : dupFlat h o with
    | error x => rw [hd] at e; cases e
    | ok r =>
      obtain ⟨h1, o1⟩ := r
      rw [hd] at e
      simp only [bind, Except.bind, Except.ok.injEq, Prod.mk.injEq] at e
      obtain ⟨rfl, rfl⟩ := e
      have C := dupFlat_spec S T hm hd
      refine ⟨_, rfl, C.pack S, ?_⟩
      intro hk w hw
      obtain ⟨o', l, c, h1', h2', h3', rfl⟩ := view_parts hw
      rw [ho] at h1'
      cases h1'
      rw [view_of (pack_there _ _) ((More.pack _ _).ivars (C.ivars.trans h2'))
        ((More.pack _ _).contents ((C.contents hk).trans h3')), C.kind, C.cls]

/-- What the copy of an object looks like. -/
def copyOf (w : View) : View :=
  match w.kind with
  | .array => { w with cls := cArray, ivars := [] }
  | .hash => { w with cls := cHash, ivars := [] }
  | _ => w

theorem dup_spec {s : Bool} {h h' : Heap} {a : Nat} {v : V} (S : Sep s h)
    (hm : s = true → NoClassCopy h (.dup (.ref a))) (e : dup h (.ref a) = .ok (h', v)) :
    ∃ a', v = .ref a' ∧ Made s h h' a' ∧ (∀ w, view h a = some w → w.kind ≠ .fiber → view h' a' = some (copyOf w)) := by
  simp only [dup] at e
  cases ho : h.objs[a]? with
  | none => simp [ho] at e
  | some o =>
    have T := S.typed a o ho
    have container : ∀ (k : Kind) (c : Nat) (p : Nat), o.kind = k → o.body = .box p → (k = .array ∨ k = .hash) →
        ∀ {h1 : Heap} {q : Nat}, h.cloneBox p = .ok (h1, q) →
        Made s h (h1.pack ⟨k, c, none, .box q⟩) h1.objs.length ∧ ∀ w, view h a = some w →
          view (h1.pack ⟨k, c, none, .box q⟩) h1.objs.length = some { w with cls := c, ivars := [] } := by
      intro k c p hk hb hor h1 q hc
      obtain ⟨b, hb', rfl, rfl⟩ := cloneBox_ok hc
      have hcont : ∀ {x}, contentsOf h o = some x → contentsOf (h.box b) ⟨k, c, none, .box h.bufs.length⟩ = some x := by
        intro x hx
        obtain ⟨k', c', vs', bd⟩ := o
        simp only at hk hb
        subst hk; subst hb
        rcases hor with rfl | rfl <;> simp only [contentsOf, box_there, hb'] at hx ⊢ <;> exact hx
      constructor
      · rcases T.body with hx | ⟨x, hx⟩
        · rw [hk] at hx; rcases hor with rfl | rfl <;> cases hx.1
        · exact made_box S b k c _ (.inl rfl) (by rcases hor with rfl | rfl <;> nofun) ⟨x, hcont hx⟩
      · intro w hw
        obtain ⟨o', l, c', h1', h2', h3', rfl⟩ := view_parts hw
        rw [ho] at h1'
        cases h1'
        rw [view_of (pack_there _ _) (l := []) rfl ((More.pack _ _).contents (hcont h3'))]
        simp [hk]
    simp only [ho] at e
    have kindw : ∀ {w}, view h a = some w → w.kind = o.kind := by
      intro w hw
      obtain ⟨o', l, c', h1', h2', h3', rfl⟩ := view_parts hw
      rw [ho] at h1'
      cases h1'
      rfl
    split at e
    · rename_i p hk hb
      cases hc : h.cloneBox p with
      | error x => rw [hc] at e; cases e
      | ok r =>
        obtain ⟨h1, q⟩ := r
        rw [hc] at e
        simp only [bind, Except.bind, Except.ok.injEq, Prod.mk.injEq] at e
        obtain ⟨rfl, rfl⟩ := e
        obtain ⟨M, W⟩ := container .array cArray p hk hb (.inl rfl) hc
        refine ⟨_, rfl, M, fun w hw _ => ?_⟩
        rw [W w hw]
        simp only [copyOf, (kindw hw).trans hk]
    · rename_i p hk hb
      cases hc : h.cloneBox p with
      | error x => rw [hc] at e; cases e
      | ok r =>
        obtain ⟨h1, q⟩ := r
        rw [hc] at e
        simp only [bind, Except.bind, Except.ok.injEq, Prod.mk.injEq] at e
        obtain ⟨rfl, rfl⟩ := e
        obtain ⟨M, W⟩ := container .hash cHash p hk hb (.inr rfl) hc
        refine ⟨_, rfl, M, fun w hw _ => ?_⟩
        rw [W w hw]
        simp only [copyOf, (kindw hw).trans hk]
    · rename_i hna hnh
      have hmod : s = true → o.kind ≠ .module := by
        intro hs hk
        rcases T.body with hx | ⟨x, hx⟩
        · rw [hk] at hx; cases hx.1
        · have : ∃ l, ivarsOf h o.vars = some l := by
            cases hv : o.vars with
            | none => exact ⟨[], rfl⟩
            | some p =>
              obtain ⟨l, hl⟩ := T.vars p hv
              exact ⟨l, by simp [ivarsOf, hl]⟩
          obtain ⟨l, hl⟩ := this
          exact hm hs a rfl _ (view_of ho hl hx) hk
      obtain ⟨a', rfl, M, W⟩ := shallowDup_spec S ho hmod e
      refine ⟨a', rfl, M, fun w hw hf => ?_⟩
      rw [W (by rw [← kindw hw]; exact hf) w hw]
      have boxed : ∀ {k}, o.kind = k → (k = .array ∨ k = .hash) → ∃ p, o.body = .box p := by
        intro k hk hor
        rcases T.body with hx | ⟨x, hx⟩
        · rw [hk] at hx; rcases hor with rfl | rfl <;> cases hx.1
        · obtain ⟨k', c', vs', bd⟩ := o
          simp only at hk
          subst hk
          rcases hor with rfl | rfl <;> cases bd <;> simp [contentsOf] at hx ⊢
      have hka : w.kind ≠ .array := fun hk => by
        rw [kindw hw] at hk
        obtain ⟨p, hp⟩ := boxed hk (.inl rfl)
        exact hna p hk hp
      have hkh : w.kind ≠ .hash := fun hk => by
        rw [kindw hw] at hk
        obtain ⟨p, hp⟩ := boxed hk (.inr rfl)
        exact hnh p hk hp
      unfold copyOf
      split
      · rename_i hk; exact absurd hk hka
      · rename_i hk; exact absurd hk hkh
      · rfl

/-! ### Writing -/

/-- The two allocations are for the same purpose. -/
def Buf.alike : Buf → Buf → Prop
  | .bytes _, .bytes _ => True
  | .items _, .items _ => True
  | .entries _, .entries _ => True
  | .vars _, .vars _ => True
  | .ext _, .ext _ => True
  | .coroutine _, .coroutine _ => True
  | _, _ => False

/-- The allocation `p` of `h` is overwritten. -/
def Heap.over (h : Heap) (p : Nat) (b : Buf) : Heap := { h with bufs := h.bufs.set p b }

theorem over_ne {h : Heap} {p q : Nat} {b : Buf} (hne : q ≠ p) : (h.over p b).bufs[q]? = h.bufs[q]? := by
  simp [Heap.over, List.getElem?_set, Ne.symm hne]

theorem over_eq {h : Heap} {p : Nat} {b b' : Buf} (hb : h.bufs[p]? = some b) : (h.over p b').bufs[p]? = some b' := by
  have := (List.getElem?_eq_some_iff.mp hb).1
  simp [Heap.over, List.getElem?_set, this]

theorem over_typed {h : Heap} {p : Nat} {b b' : Buf} (hb : h.bufs[p]? = some b) (ha : b.alike b') {o : Obj} (T : Typed h o) :
    Typed (h.over p b') o := by
  constructor
  · intro q hq
    obtain ⟨l, hl⟩ := T.vars q hq
    by_cases hqp : q = p
    · subst hqp
      rw [over_eq hb]
      rw [hb] at hl
      cases hl
      cases b' <;> simp [Buf.alike] at ha ⊢
    · exact ⟨l, by rw [over_ne hqp]; exact hl⟩
  · rcases T.body with hx | ⟨x, hx⟩
    · exact .inl hx
    · right
      obtain ⟨k, c, v, bd⟩ := o
      cases k <;> cases bd <;> simp only [contentsOf, reduceCtorEq] at hx ⊢ <;> try exact ⟨_, rfl⟩
      · exact ⟨x, hx⟩
      all_goals
        rename_i q
        by_cases hqp : q = p
        · subst hqp
          rw [over_eq hb]
          rw [hb] at hx
          cases b <;> simp at hx
          cases b' <;> simp [Buf.alike] at ha ⊢
        · rw [over_ne hqp]; exact ⟨x, hx⟩

theorem Sep.over {s : Bool} {h : Heap} (S : Sep s h) {p : Nat} {b b' : Buf} (hb : h.bufs[p]? = some b) (ha : b.alike b') :
    Sep s (h.over p b') :=
  ⟨S.excl, fun i o e => over_typed hb ha (S.typed i o e), S.plain⟩

/-- Objects that do not have the allocation look the same. -/
theorem over_view {h : Heap} {p : Nat} {b : Buf} {z : Nat} {o : Obj} (ho : h.objs[z]? = some o) (hp : p ∉ o.ptrs true) :
    view (h.over p b) z = view h z := by
  have ho' : (h.over p b).objs[z]? = some o := ho
  have hn : ∀ v, numOf (h.over p b) v = numOf h v := by
    intro v; cases v <;> rfl
  have hiv : ivarsOf (h.over p b) o.vars = ivarsOf h o.vars := by
    cases hv : o.vars with
    | none => rfl
    | some q =>
      have : q ≠ p := fun e => hp (by simp [Obj.ptrs, Obj.own, hv, e])
      simp only [ivarsOf, over_ne this]
  have hct : contentsOf (h.over p b) o = contentsOf h o := by
    obtain ⟨k, c, v, bd⟩ := o
    cases k <;> cases bd <;> simp only [contentsOf, hn] <;>
    · rename_i q
      have : q ≠ p := fun e => hp (by simp [Obj.ptrs, Obj.own, Obj.tables, e])
      rw [over_ne this]
  simp only [view, ho, ho', hiv, hct]

/-- A box of one object is not an allocation of another. -/
theorem Sep.other {s : Bool} {h : Heap} (S : Sep s h) {a z p : Nat} {oa oz : Obj} {b : Buf} (ha : h.objs[a]? = some oa)
    (hz : h.objs[z]? = some oz) (hne : z ≠ a) (hp : p ∈ oa.own) (hb : h.bufs[p]? = some b) (hx : ∀ l, b ≠ .ext l) :
    p ∉ oz.ptrs true := by
  intro hm
  simp only [Obj.ptrs, if_true, List.mem_append] at hm
  rcases hm with hm | hm
  · exact hne (S.excl z a oz oa p hz ha (by simp [Obj.ptrs, hm]) (by simp [Obj.ptrs, hp]))
  · have T := S.typed z oz hz
    have hpl := S.plain z oz hz
    obtain ⟨k, c, v, bd⟩ := oz
    cases bd <;> simp [Obj.tables] at hm
    rename_i u q
    subst hm
    rcases T.body with hx' | ⟨x, hx'⟩
    · simp at hx'
    · cases k <;> simp [contentsOf, hb] at hx' hpl
      split at hx'
      · rename_i l hl
        cases hl
        exact hx _ rfl
      · cases hx'

/-- The tables of a class are not an allocation of an object that is no class, or if `strict`, of any other. -/
theorem Sep.other_class {s : Bool} {h : Heap} (S : Sep s h) {a z p : Nat} {oa oz : Obj} {l : List Nat} (ha : h.objs[a]? = some oa)
    (hz : h.objs[z]? = some oz) (hne : z ≠ a) (hp : p ∈ oa.tables) (hb : h.bufs[p]? = some (.ext l))
    (hs : s = true ∨ oz.kind ≠ .module) : p ∉ oz.ptrs true := by
  intro hm
  have T := S.typed z oz hz
  have hpl := S.plain z oz hz
  simp only [Obj.ptrs, if_true, List.mem_append] at hm
  rcases hm with hm | hm
  · obtain ⟨k, c, v, bd⟩ := oz
    simp only [Obj.own, List.mem_append] at hm
    rcases hm with hm | hm
    · cases v <;> simp at hm
      subst hm
      obtain ⟨l', hl'⟩ := T.vars _ rfl
      rw [hb] at hl'; cases hl'
    · cases bd <;> simp at hm
      subst hm
      rcases T.body with hx' | ⟨x, hx'⟩
      · simp at hx'
      · cases k <;> simp [contentsOf, hb] at hx' hpl
  · rcases hs with rfl | hk
    · exact hne (S.excl z a oz oa p hz ha (by simp [Obj.ptrs, hm]) (by simp [Obj.ptrs, hp]))
    · obtain ⟨k, c, v, bd⟩ := oz
      cases bd <;> simp [Obj.tables] at hm
      rcases T.body with hx' | ⟨x, hx'⟩
      · simp at hx'
      · cases k <;> simp [contentsOf] at hx' hpl hk

/-- What an operation on the object `a` does. -/
structure Wrote (s : Bool) (h h' : Heap) (op : Op) (a : Nat) : Prop where
  sep : Sep s h'
  self : ∀ w, view h a = some w → view h' a = some (written op w)
  others : ∀ z w, view h z = some w → z ≠ a → ((∀ x m, op ≠ .define x m) ∨ s = true ∨ w.kind ≠ .module) → view h' z = some w

theorem ivars_over {h : Heap} {p : Nat} {b b' : Buf} {o : Obj} (T : Typed h o) (hb : h.bufs[p]? = some b) (hx : ∀ l, b ≠ .vars l) :
    ivarsOf (h.over p b') o.vars = ivarsOf h o.vars := by
  cases hv : o.vars with
  | none => rfl
  | some q =>
    obtain ⟨l, hl⟩ := T.vars q hv
    have : q ≠ p := fun e => by subst e; rw [hb] at hl; cases hl; exact hx _ rfl
    simp only [ivarsOf, over_ne this]

/-- A write to a box of `a`. -/
theorem wrote_box {s : Bool} {h : Heap} {op : Op} {a p : Nat} {o : Obj} {b b' : Buf} (S : Sep s h) (ho : h.objs[a]? = some o)
    (hp : p ∈ o.own) (hb : h.bufs[p]? = some b) (hx : ∀ l, b ≠ .ext l) (ha : b.alike b')
    (hs : ∀ w, view h a = some w → view (h.over p b') a = some (written op w)) : Wrote s h (h.over p b') op a := by
  refine ⟨S.over hb ha, hs, fun z w hw hne _ => ?_⟩
  obtain ⟨oz, l, c, h1, h2, h3, rfl⟩ := view_parts hw
  rw [over_view h1 (S.other ho h1 hne hp hb hx)]
  exact hw

theorem step_write {s : Bool} {h h' : Heap} {op : Op} {x v : V} (S : Sep s h) (ht : op.target = some x)
    (e : step h op = .ok (h', v)) : v = x ∧ ∃ a, x = .ref a ∧ Wrote s h h' op a := by
  cases op <;> simp only [Op.target, reduceCtorEq, Option.some.injEq] at ht <;> subst ht
  case push x v' =>
    cases x <;> simp only [step, reduceCtorEq] at e
    rename_i a
    split at e
    · rename_i c vs p ho
      split at e
      · rename_i l hb
        simp only [Except.ok.injEq, Prod.mk.injEq] at e
        obtain ⟨rfl, rfl⟩ := e
        refine ⟨rfl, a, rfl, wrote_box S ho (by simp [Obj.own]) hb nofun (b' := .items (l ++ [v'])) trivial ?_⟩
        intro w hw
        obtain ⟨o', il, c', h1, h2, h3, rfl⟩ := view_parts hw
        rw [ho] at h1; cases h1
        simp only [contentsOf, hb, Option.some.injEq] at h3
        subst h3
        have hiv := ivars_over (b' := .items (l ++ [v'])) (S.typed a _ ho) hb nofun
        rw [view_of (h := h.over p (.items (l ++ [v']))) (o := ⟨.array, c, vs, .box p⟩) ho (hiv.trans h2)
          (c := .items (l ++ [v'])) (by simp [contentsOf, over_eq hb])]
        rfl
      · cases e
    · cases e
    · cases e
  case append x v' =>
    cases x <;> simp only [step, reduceCtorEq] at e
    rename_i a
    split at e
    · rename_i c vs p ho
      split at e
      · rename_i l hb
        simp only [Except.ok.injEq, Prod.mk.injEq] at e
        obtain ⟨rfl, rfl⟩ := e
        refine ⟨rfl, a, rfl, wrote_box S ho (by simp [Obj.own]) hb nofun (b' := .bytes (l ++ v')) trivial ?_⟩
        intro w hw
        obtain ⟨o', il, c', h1, h2, h3, rfl⟩ := view_parts hw
        rw [ho] at h1; cases h1
        simp only [contentsOf, hb, Option.some.injEq] at h3
        subst h3
        have hiv := ivars_over (b' := .bytes (l ++ v')) (S.typed a _ ho) hb nofun
        rw [view_of (h := h.over p (.bytes (l ++ v'))) (o := ⟨.string, c, vs, .box p⟩) ho (hiv.trans h2)
          (c := .text (l ++ v')) (by simp [contentsOf, over_eq hb])]
        rfl
      · cases e
    · cases e
    · cases e
  case store x k v' =>
    cases x <;> simp only [step, reduceCtorEq] at e
    rename_i a
    split at e
    · rename_i c vs p ho
      split at e
      · rename_i l hb
        simp only [Except.ok.injEq, Prod.mk.injEq] at e
        obtain ⟨rfl, rfl⟩ := e
        refine ⟨rfl, a, rfl, wrote_box S ho (by simp [Obj.own]) hb nofun (b' := .entries (insert k v' l)) trivial ?_⟩
        intro w hw
        obtain ⟨o', il, c', h1, h2, h3, rfl⟩ := view_parts hw
        rw [ho] at h1; cases h1
        simp only [contentsOf, hb, Option.some.injEq] at h3
        subst h3
        have hiv := ivars_over (b' := .entries (insert k v' l)) (S.typed a _ ho) hb nofun
        rw [view_of (h := h.over p (.entries (insert k v' l))) (o := ⟨.hash, c, vs, .box p⟩) ho (hiv.trans h2)
          (c := .entries (insert k v' l)) (by simp [contentsOf, over_eq hb])]
        rfl
      · cases e
    · cases e
    · cases e
  case resume x =>
    cases x <;> simp only [step, reduceCtorEq] at e
    rename_i a
    split at e
    · rename_i c vs p ho
      split at e
      · rename_i n hb
        simp only [Except.ok.injEq, Prod.mk.injEq] at e
        obtain ⟨rfl, rfl⟩ := e
        refine ⟨rfl, a, rfl, wrote_box S ho (by simp [Obj.own]) hb nofun (b' := .coroutine (n + 1)) trivial ?_⟩
        intro w hw
        obtain ⟨o', il, c', h1, h2, h3, rfl⟩ := view_parts hw
        rw [ho] at h1; cases h1
        simp only [contentsOf, hb, Option.some.injEq] at h3
        subst h3
        have hiv := ivars_over (b' := .coroutine (n + 1)) (S.typed a _ ho) hb nofun
        rw [view_of (h := h.over p (.coroutine (n + 1))) (o := ⟨.fiber, c, vs, .box p⟩) ho (hiv.trans h2)
          (c := .progress (n + 1)) (by simp [contentsOf, over_eq hb])]
        rfl
      · cases e
    · cases e
    · cases e
    · cases e
  case define x m =>
    cases x <;> simp only [step, reduceCtorEq] at e
    rename_i a
    split at e
    · rename_i c vs u p ho
      split at e
      · rename_i l hb
        simp only [Except.ok.injEq, Prod.mk.injEq] at e
        obtain ⟨rfl, rfl⟩ := e
        refine ⟨rfl, a, rfl, S.over hb (b' := .ext (l ++ [m])) trivial, ?_, ?_⟩
        · intro w hw
          obtain ⟨o', il, c', h1, h2, h3, rfl⟩ := view_parts hw
          rw [ho] at h1; cases h1
          simp only [contentsOf, hb, Option.some.injEq] at h3
          subst h3
          have hiv := ivars_over (b' := .ext (l ++ [m])) (S.typed a _ ho) hb nofun
          show view (h.over p (.ext (l ++ [m]))) a = _
          rw [view_of (h := h.over p (.ext (l ++ [m]))) (o := ⟨.module, c, vs, .classInfo u p⟩) ho (hiv.trans h2)
            (c := .methods u (l ++ [m])) (by simp [contentsOf, over_eq hb])]
          rfl
        · intro z w hw hne hor
          obtain ⟨oz, l', c', h1, h2, h3, rfl⟩ := view_parts hw
          have hor' : s = true ∨ oz.kind ≠ .module := by
            rcases hor with h | h
            · exact absurd rfl (h _ _)
            · exact h
          refine (over_view h1 (S.other_class ho h1 hne (by simp [Obj.tables]) hb hor')).trans hw
      · cases e
    · cases e
    · cases e
  case ivarSet x name v' =>
    cases x <;> simp only [step, reduceCtorEq] at e
    rename_i a
    split at e
    · rename_i o ho
      split at e
      · rename_i p hv
        split at e
        · rename_i l hb
          simp only [Except.ok.injEq, Prod.mk.injEq] at e
          obtain ⟨rfl, rfl⟩ := e
          refine ⟨rfl, a, rfl, wrote_box S ho (by simp [Obj.own, hv]) hb nofun (b' := .vars (setVar name v' l)) trivial ?_⟩
          intro w hw
          obtain ⟨o', il, c', h1, h2, h3, rfl⟩ := view_parts hw
          rw [ho] at h1; cases h1
          simp only [hv, ivarsOf, hb, Option.some.injEq] at h2
          subst h2
          have hct : contentsOf (h.over p (.vars (setVar name v' l))) o = some c' := by
            have hn : ∀ v, numOf (h.over p (.vars (setVar name v' l))) v = numOf h v := by
              intro v; cases v <;> rfl
            obtain ⟨k, c, v, bd⟩ := o
            cases k <;> cases bd <;> simp only [contentsOf, hn] at h3 ⊢ <;> try exact h3
            all_goals
              rename_i q
              have : q ≠ p := fun e => by subst e; rw [hb] at h3; simp at h3
              rw [over_ne this]; exact h3
          rw [view_of (h := h.over p (.vars (setVar name v' l))) ho (l := setVar name v' l) (by simp [hv, ivarsOf, over_eq hb]) hct]
          rfl
        · cases e
      · rename_i hv
        simp only [Except.ok.injEq, Prod.mk.injEq] at e
        obtain ⟨rfl, rfl⟩ := e
        generalize hh : (⟨h.objs.set a { o with vars := some h.bufs.length }, h.bufs ++ [.vars [(name, v')]]⟩ : Heap) = h'
        have lta := (List.getElem?_eq_some_iff.mp ho).1
        have oa : h'.objs[a]? = some { o with vars := some h.bufs.length } := by subst hh; simp [lta]
        have oz : ∀ z, z ≠ a → h'.objs[z]? = h.objs[z]? := by
          intro z hz; subst hh; simp [List.getElem?_set, Ne.symm hz]
        have bn : h'.bufs[h.bufs.length]? = some (.vars [(name, v')]) := by subst hh; simp
        have bo : ∀ (p : Nat) b, h.bufs[p]? = some b → h'.bufs[p]? = some b := by
          intro p b hb; subst hh; exact get_app hb
        have g : Grow h h' := by
          intro z o' ez
          by_cases hz : z = a
          · subst hz; rw [ho] at ez; cases ez; exact ⟨_, oa, rfl, rfl, rfl⟩
          · exact ⟨o', (oz z hz).trans ez, rfl, rfl, rfl⟩
        have ct : ∀ {q q' : Obj} {c}, q'.kind = q.kind → q'.body = q.body → contentsOf h q = some c → contentsOf h' q' = some c := by
          intro q q' c hk hb hc
          obtain ⟨k, cl, vs, bd⟩ := q
          obtain ⟨k', cl', vs', bd'⟩ := q'
          simp only at hk hb
          subst hk; subst hb
          cases k' <;> cases bd' <;> simp only [contentsOf] at hc ⊢ <;> try exact hc
          · rename_i r i
            cases hr : numOf h r with
            | none => simp [hr] at hc
            | some r' =>
              cases hi : numOf h i with
              | none => simp [hr, hi] at hc
              | some i' =>
                rw [numOf_grow g hr, numOf_grow g hi]
                simpa [hr, hi] using hc
          all_goals
            rename_i q
            cases hl : h.bufs[q]? with
            | none => simp [hl] at hc
            | some bb => rw [bo _ _ hl]; simpa [hl] using hc
        have iv : ∀ {v l}, ivarsOf h v = some l → ivarsOf h' v = some l := by
          intro v l hl
          cases v with
          | none => exact hl
          | some p =>
            simp only [ivarsOf] at hl ⊢
            cases hp : h.bufs[p]? with
            | none => simp [hp] at hl
            | some b => rw [bo _ _ hp]; simpa [hp] using hl
        refine ⟨rfl, a, rfl, ⟨?_, ?_, ?_⟩, ?_, ?_⟩
        · have back : ∀ {i : Nat} {oi : Obj} {p : Nat}, h'.objs[i]? = some oi → p ∈ oi.ptrs s →
              (∃ oi', h.objs[i]? = some oi' ∧ p ∈ oi'.ptrs s) ∨ (i = a ∧ p = h.bufs.length) := by
            intro i oi p ei hp
            by_cases hi : i = a
            · subst hi
              rw [oa] at ei
              cases ei
              simp only [Obj.ptrs, Obj.own, Obj.tables, List.cons_append, List.nil_append, List.mem_cons] at hp
              rcases hp with hp | hp
              · exact .inr ⟨rfl, hp⟩
              · exact .inl ⟨o, ho, by simpa [Obj.ptrs, Obj.own, Obj.tables, hv] using hp⟩
            · rw [oz i hi] at ei
              exact .inl ⟨oi, ei, hp⟩
          intro i j oi oj p ei ej hp hp'
          rcases back ei hp with ⟨oi', h1, h2⟩ | ⟨h1, h2⟩ <;> rcases back ej hp' with ⟨oj', h3, h4⟩ | ⟨h3, h4⟩
          · exact S.excl i j oi' oj' p h1 h3 h2 h4
          · exact absurd h2 (S.fresh (by omega) i oi' h1)
          · exact absurd h4 (S.fresh (by omega) j oj' h3)
          · rw [h1, h3]
        · intro i oi ei
          by_cases hi : i = a
          · subst hi
            rw [oa] at ei
            cases ei
            refine ⟨fun p hp => ?_, ?_⟩
            · simp only [Option.some.injEq] at hp
              subst hp
              exact ⟨_, bn⟩
            · rcases (S.typed i o ho).body with hx | ⟨x, hx⟩
              · exact .inl hx
              · exact .inr ⟨x, ct rfl rfl hx⟩
          · rw [oz i hi] at ei
            have T := S.typed i oi ei
            refine ⟨fun p hp => ?_, ?_⟩
            · obtain ⟨l, hl⟩ := T.vars p hp
              exact ⟨l, bo _ _ hl⟩
            · rcases T.body with hx | ⟨x, hx⟩
              · exact .inl hx
              · exact .inr ⟨x, ct rfl rfl hx⟩
        · intro i oi ei
          by_cases hi : i = a
          · subst hi
            rw [oa] at ei
            cases ei
            exact S.plain i o ho
          · rw [oz i hi] at ei
            exact S.plain i oi ei
        · intro w hw
          obtain ⟨o', il, c', h1, h2, h3, rfl⟩ := view_parts hw
          rw [ho] at h1; cases h1
          simp only [hv, ivarsOf, Option.some.injEq] at h2
          subst h2
          rw [view_of oa (l := [(name, v')]) (by simp [ivarsOf, bn]) (ct (q := o) rfl rfl h3)]
          rfl
        · intro z w hw hne _
          obtain ⟨o', il, c', h1, h2, h3, rfl⟩ := view_parts hw
          exact view_of ((oz z hne).trans h1) (iv h2) (ct rfl rfl h3)
    · cases e

theorem step_make {s : Bool} {h h' : Heap} {op : Op} {v : V} (S : Sep s h) (hm : s = true → NoClassCopy h op)
    (ht : op.target = none) (e : step h op = .ok (h', v)) :
    (op = .dup v ∧ h' = h ∧ ∀ a, v ≠ .ref a) ∨ ∃ a, v = .ref a ∧ Made s h h' a := by
  cases op <;> simp only [Op.target, reduceCtorEq] at ht
  case object c =>
    simp only [step, Except.ok.injEq, Prod.mk.injEq] at e
    obtain ⟨rfl, rfl⟩ := e
    exact .inr ⟨_, rfl, made_flat S _ _ _ rfl (fun _ => rfl) ⟨_, rfl⟩⟩
  case number n =>
    simp only [step, Except.ok.injEq, Prod.mk.injEq] at e
    obtain ⟨rfl, rfl⟩ := e
    exact .inr ⟨_, rfl, made_flat S _ _ _ rfl nofun ⟨_, rfl⟩⟩
  case complex r i =>
    simp only [step] at e
    split at e
    · rename_i hc
      simp only [Except.ok.injEq, Prod.mk.injEq] at e
      obtain ⟨rfl, rfl⟩ := e
      refine .inr ⟨_, rfl, made_flat S _ _ _ rfl nofun ?_⟩
      obtain ⟨r', hr⟩ := Option.isSome_iff_exists.mp hc.1
      obtain ⟨i', hi⟩ := Option.isSome_iff_exists.mp hc.2
      exact ⟨_, by simp only [contentsOf, hr, hi]; rfl⟩
    · cases e
  case stringNew c args =>
    simp only [step] at e
    cases hq : stringArgs h args with
    | error x => rw [hq] at e; cases e
    | ok l =>
      rw [hq] at e
      simp only [bind, Except.bind, Except.ok.injEq, Prod.mk.injEq] at e
      obtain ⟨rfl, rfl⟩ := e
      exact .inr ⟨_, rfl, made_box S _ _ _ _ (.inl rfl) nofun ⟨_, by simp only [contentsOf, box_there]; rfl⟩⟩
  case arrayNew c args =>
    simp only [step] at e
    cases hq : arrayArgs h args with
    | error x => rw [hq] at e; cases e
    | ok l =>
      rw [hq] at e
      simp only [bind, Except.bind, Except.ok.injEq, Prod.mk.injEq] at e
      obtain ⟨rfl, rfl⟩ := e
      exact .inr ⟨_, rfl, made_box S _ _ _ _ (.inl rfl) nofun ⟨_, by simp only [contentsOf, box_there]; rfl⟩⟩
  case arrayOf c l =>
    simp only [step, Except.ok.injEq, Prod.mk.injEq] at e
    obtain ⟨rfl, rfl⟩ := e
    exact .inr ⟨_, rfl, made_box S _ _ _ _ (.inl rfl) nofun ⟨_, by simp only [contentsOf, box_there]; rfl⟩⟩
  case hashNew args =>
    cases args with
    | cons x xs => simp [step] at e
    | nil =>
      simp only [step, Except.ok.injEq, Prod.mk.injEq] at e
      obtain ⟨rfl, rfl⟩ := e
      exact .inr ⟨_, rfl, made_box S _ _ _ _ (.inl rfl) nofun ⟨_, by simp only [contentsOf, box_there]; rfl⟩⟩
  case classNew u =>
    simp only [step, Except.ok.injEq, Prod.mk.injEq] at e
    obtain ⟨rfl, rfl⟩ := e
    exact .inr ⟨_, rfl, made_box S _ _ _ _ (.inr ⟨_, rfl⟩) nofun ⟨_, by simp only [contentsOf, box_there]; rfl⟩⟩
  case fiberNew =>
    simp only [step, Except.ok.injEq, Prod.mk.injEq] at e
    obtain ⟨rfl, rfl⟩ := e
    exact .inr ⟨_, rfl, made_box S _ _ _ _ (.inl rfl) nofun ⟨_, by simp only [contentsOf, box_there]; rfl⟩⟩
  case dup x =>
    cases x with
    | nil =>
      simp only [step, dup, Except.ok.injEq, Prod.mk.injEq] at e
      obtain ⟨rfl, rfl⟩ := e
      exact .inl ⟨rfl, rfl, nofun⟩
    | imm n =>
      simp only [step, dup, Except.ok.injEq, Prod.mk.injEq] at e
      obtain ⟨rfl, rfl⟩ := e
      exact .inl ⟨rfl, rfl, nofun⟩
    | ref a =>
      obtain ⟨a', h1, h2, _⟩ := dup_spec S hm e
      exact .inr ⟨a', h1, h2⟩

theorem Reach.sep {s : Bool} {h : Heap} (R : Reach s h) : Sep s h := by
  induction R with
  | start => exact Sep.empty s
  | @step h h' op v _ hm e S =>
    cases ht : op.target with
    | none =>
      rcases step_make S hm ht e with ⟨_, rfl, _⟩ | ⟨a, _, M⟩
      · exact S
      · exact M.sep
    | some x =>
      obtain ⟨_, a, _, W⟩ := step_write S ht e
      exact W.sep

theorem Reach.weaken {s : Bool} {h : Heap} (R : Reach s h) : Reach false h := by
  induction R with
  | start => exact .start
  | step _ _ e ih => exact .step ih nofun e

/-! ### Copies are made -/

theorem cloneBox_some {h : Heap} {p : Nat} {b : Buf} (hb : h.bufs[p]? = some b) : h.cloneBox p = .ok (h.box b, h.bufs.length) := by
  simp [Heap.cloneBox, hb]

theorem cloneVars_total {h : Heap} {o : Obj} (T : Typed h o) : ∃ r, cloneVars h o.vars = .ok r ∧ More h r.1 := by
  cases hv : o.vars with
  | none => exact ⟨_, rfl, More.refl _⟩
  | some p =>
    obtain ⟨l, hl⟩ := T.vars p hv
    exact ⟨_, by simp only [cloneVars, cloneBox_some hl]; rfl, More.box _ _⟩

theorem dupFlat_total {h : Heap} {o : Obj} (T : Typed h o) (hk : o.kind ≠ .complex) : ∃ r, dupFlat h o = .ok r := by
  obtain ⟨⟨h1, vs⟩, hr, m⟩ := cloneVars_total T
  unfold dupFlat
  rw [hr]
  have hb := T.body
  obtain ⟨k, c, v, bd⟩ := o
  cases k <;> cases bd <;> simp only [contentsOf, reduceCtorEq, false_and, false_or, and_false] at hb <;>
    first
    | exact ⟨_, rfl⟩
    | exact absurd rfl hk
    | (obtain ⟨x, hx⟩ := hb; cases hx)
    | (obtain ⟨x, hx⟩ := hb
       rename_i p
       cases hl : h.bufs[p]? with
       | none => simp [hl] at hx
       | some b => exact ⟨_, by simp only [bind, Except.bind, cloneBox_some (m.bufs _ _ hl)]; rfl⟩)

theorem dupPart_total {s : Bool} {h : Heap} (S : Sep s h) {v : V} {n : Int} (hn : numOf h v = some n) :
    ∃ r, dupPart h v = .ok r := by
  cases v with
  | nil => simp [numOf] at hn
  | imm m => exact ⟨_, rfl⟩
  | ref a =>
    simp only [numOf] at hn
    split at hn
    · rename_i c vs m ho
      obtain ⟨r, hr⟩ := dupFlat_total (S.typed a _ ho) nofun
      exact ⟨_, by simp only [dupPart, ho, hr]; rfl⟩
    · cases hn

theorem dup_total {s : Bool} {h : Heap} (S : Sep s h) {a : Nat} {w : View} (hw : view h a = some w) :
    ∃ r, dup h (.ref a) = .ok r := by
  obtain ⟨o, l, c, ho, hl, hc, rfl⟩ := view_parts hw
  have T := S.typed a o ho
  simp only [dup, ho]
  split
  · rename_i p hk hb
    cases hb' : h.bufs[p]? with
    | none =>
      obtain ⟨k, cl, vs, bd⟩ := o
      simp only at hk hb
      subst hk; subst hb
      simp [contentsOf, hb'] at hc
    | some b => exact ⟨_, by simp only [bind, Except.bind, cloneBox_some hb']; rfl⟩
  · rename_i p hk hb
    cases hb' : h.bufs[p]? with
    | none =>
      obtain ⟨k, cl, vs, bd⟩ := o
      simp only at hk hb
      subst hk; subst hb
      simp [contentsOf, hb'] at hc
    | some b => exact ⟨_, by simp only [bind, Except.bind, cloneBox_some hb']; rfl⟩
  · unfold shallowDup
    split
    · rename_i r i hk hb
      obtain ⟨⟨h1, vs⟩, hr, m⟩ := cloneVars_total T
      obtain ⟨m1, S1, _⟩ := cloneVars_spec S T.vars hr
      have hx : ∃ nr ni, numOf h r = some nr ∧ numOf h i = some ni := by
        obtain ⟨k, cl, vs', bd⟩ := o
        simp only at hk hb
        subst hk; subst hb
        simp only [contentsOf] at hc
        split at hc
        · rename_i nr ni h1 h2
          exact ⟨nr, ni, h1, h2⟩
        · cases hc
      obtain ⟨nr, ni, hnr, hni⟩ := hx
      obtain ⟨⟨h2, r'⟩, hd⟩ := dupPart_total S1 (numOf_grow m1.grow hnr)
      obtain ⟨m2, S2, _⟩ := dupPart_spec S1 (numOf_grow m1.grow hnr) hd
      obtain ⟨⟨h3, i'⟩, hd'⟩ := dupPart_total S2 (numOf_grow (m1.trans m2).grow hni)
      exact ⟨_, by simp only [bind, Except.bind, hr, hd, hd']; rfl⟩
    · rename_i hne
      have hk : o.kind ≠ .complex := by
        intro hk
        obtain ⟨k, cl, vs, bd⟩ := o
        simp only at hk
        subst hk
        cases bd <;> simp [contentsOf] at hc
        exact hne _ _ rfl rfl
      obtain ⟨⟨h1, o1⟩, hr⟩ := dupFlat_total T hk
      exact ⟨_, by simp only [bind, Except.bind, hr]; rfl⟩

/-! ## C116 -/

/-- **C116** (new objects).  Whatever was done before, `new`, the computation of a number, `dup` and `clone` give an object whose
address is not in use, and all objects look as before; `dup` of nil or of an immediate number gives that value and does nothing. -/
theorem C116_fresh {s : Bool} {h h' : Heap} {op : Op} {v : V} (R : Reach s h) (ht : op.target = none)
    (e : step h op = .ok (h', v)) :
    ((op = .dup v ∧ h' = h ∧ ∀ a, v ≠ .ref a) ∨ ∃ a, v = .ref a ∧ h.objs[a]? = none ∧ h'.objs[a]? ≠ none) ∧
    ∀ z w, view h z = some w → view h' z = some w := by
  rcases step_make R.weaken.sep (s := false) nofun ht e with ⟨h1, rfl, h2⟩ | ⟨a, rfl, M⟩
  · exact ⟨.inl ⟨h1, rfl, h2⟩, fun _ _ h => h⟩
  · obtain ⟨o, ho⟩ := M.there
    exact ⟨.inr ⟨a, rfl, List.getElem?_eq_none M.free, by rw [ho]; nofun⟩, fun z w hw => M.more.view hw⟩

/-- **C116** (what `new` gives): an object of the class without instance variables; an array with the elements of the given
array, with `n` times the given value or nil; a string with the characters of the given one; an empty hash. -/
theorem C116_new_partial {s : Bool} {h : Heap} (R : Reach s h) (c : Nat) :
    (∃ h' a, step h (.object c) = .ok (h', .ref a) ∧ view h' a = some ⟨.ordinary, c, [], .plain⟩) ∧
    (∀ l, ∃ h' a, step h (.arrayOf c l) = .ok (h', .ref a) ∧ view h' a = some ⟨.array, c, [], .items l⟩) ∧
    (∃ h' a, step h (.arrayNew c []) = .ok (h', .ref a) ∧ view h' a = some ⟨.array, c, [], .items []⟩) ∧
    (∀ n : Nat, ∃ h' a, step h (.arrayNew c [.imm n]) = .ok (h', .ref a) ∧
      view h' a = some ⟨.array, c, [], .items (List.replicate n .nil)⟩) ∧
    (∀ (n : Nat) v, ∃ h' a, step h (.arrayNew c [.imm n, v]) = .ok (h', .ref a) ∧
      view h' a = some ⟨.array, c, [], .items (List.replicate n v)⟩) ∧
    (∀ z cl iv l, view h z = some ⟨.array, cl, iv, .items l⟩ → ∃ h' a, step h (.arrayNew c [.ref z]) = .ok (h', .ref a) ∧
      view h' a = some ⟨.array, c, [], .items l⟩) ∧
    (∃ h' a, step h (.stringNew c []) = .ok (h', .ref a) ∧ view h' a = some ⟨.string, c, [], .text []⟩) ∧
    (∀ z cl iv b, view h z = some ⟨.string, cl, iv, .text b⟩ → ∃ h' a, step h (.stringNew c [.ref z]) = .ok (h', .ref a) ∧
      view h' a = some ⟨.string, c, [], .text b⟩) ∧
    ∃ h' a, step h (.hashNew []) = .ok (h', .ref a) ∧ view h' a = some ⟨.hash, cHash, [], .entries []⟩ := by
  have arr : ∀ l, view ((h.box (.items l)).pack ⟨.array, c, none, .box h.bufs.length⟩) h.objs.length =
      some ⟨.array, c, [], .items l⟩ := fun l =>
    view_of (pack_there (h.box _) _) rfl ((More.pack _ _).contents (by simp only [contentsOf, box_there]))
  have str : ∀ l, view ((h.box (.bytes l)).pack ⟨.string, c, none, .box h.bufs.length⟩) h.objs.length =
      some ⟨.string, c, [], .text l⟩ := fun l =>
    view_of (pack_there (h.box _) _) rfl ((More.pack _ _).contents (by simp only [contentsOf, box_there]))
  refine ⟨⟨_, _, rfl, view_of (pack_there _ _) rfl rfl⟩, fun l => ⟨_, _, rfl, arr l⟩, ⟨_, _, rfl, arr []⟩, fun n => ⟨_, _, ?_, arr _⟩,
    fun n v => ⟨_, _, ?_, arr _⟩, fun z cl iv l hz => ⟨_, _, ?_, arr l⟩, ⟨_, _, rfl, str []⟩, fun z cl iv b hz => ⟨_, _, ?_, str b⟩,
    ⟨_, _, rfl, view_of (pack_there (h.box _) _) rfl ((More.pack _ _).contents (by simp only [contentsOf, box_there]))⟩⟩
  · have : ¬ (n : Int) < 0 := by omega
    simp [step, arrayArgs, this, bind, Except.bind]
  · have : ¬ (n : Int) < 0 := by omega
    cases v <;> simp [step, arrayArgs, this, bind, Except.bind]
  · obtain ⟨o, il, c', h1, h2, h3, h4⟩ := view_parts hz
    obtain ⟨k, c1, vs, bd⟩ := o
    simp only [View.mk.injEq] at h4
    obtain ⟨rfl, rfl, rfl, rfl⟩ := h4
    cases bd <;> simp only [contentsOf, reduceCtorEq] at h3
    split at h3
    · rename_i hb
      cases h3
      simp [step, arrayArgs, itemsOf, h1, hb, bind, Except.bind]
    · cases h3
  · obtain ⟨o, il, c', h1, h2, h3, h4⟩ := view_parts hz
    obtain ⟨k, c1, vs, bd⟩ := o
    simp only [View.mk.injEq] at h4
    obtain ⟨rfl, rfl, rfl, rfl⟩ := h4
    cases bd <;> simp only [contentsOf, reduceCtorEq] at h3
    split at h3
    · rename_i hb
      cases h3
      simp [step, stringArgs, bytesOf, h1, hb, bind, Except.bind]
    · cases h3

/-- **C116** (copies).  `x.dup` and `x.clone` give a new object that looks like `x`: the same class, instance variables and
contents.  Partial: not for fibers and enumerators, nor for arrays and hashes of subclasses or with instance variables. -/
theorem C116_copy_partial {s : Bool} {h : Heap} {a : Nat} {w : View} (R : Reach s h) (hw : view h a = some w)
    (hf : w.kind ≠ .fiber) (ha : w.kind = .array → w.cls = cArray ∧ w.ivars = [])
    (hh : w.kind = .hash → w.cls = cHash ∧ w.ivars = []) :
    ∃ h' a', step h (.dup (.ref a)) = .ok (h', .ref a') ∧ h.objs[a']? = none ∧ view h' a' = some w := by
  have S := R.weaken.sep
  obtain ⟨⟨h', v⟩, e⟩ := dup_total S hw
  obtain ⟨a', rfl, M, W⟩ := dup_spec S nofun e
  refine ⟨h', a', e, List.getElem?_eq_none M.free, ?_⟩
  rw [W w hw hf]
  congr 1
  obtain ⟨k, c, iv, ct⟩ := w
  unfold copyOf
  split
  · rename_i hk
    obtain ⟨h1, h2⟩ := ha hk
    simp only at h1 h2
    rw [h1, h2]
  · rename_i hk
    obtain ⟨h1, h2⟩ := hh hk
    simp only at h1 h2
    rw [h1, h2]
  · rfl

/-- **C116** (writing).  A write changes the object it is about as it says, and is seen in no other object. -/
theorem C116_write_partial {s : Bool} {h h' : Heap} {op : Op} {x v : V} (R : Reach s h) (ht : op.target = some x)
    (e : step h op = .ok (h', v)) :
    v = x ∧ ∃ a, x = .ref a ∧ (∀ w, view h a = some w → view h' a = some (written op w)) ∧
      ∀ z w, view h z = some w → z ≠ a → ((∀ y m, op ≠ .define y m) ∨ s = true ∨ w.kind ≠ .module) → view h' z = some w := by
  obtain ⟨h1, a, h2, W⟩ := step_write R.sep ht e
  exact ⟨h1, a, h2, W.self, W.others⟩

/-- **C116** (histories).  Whatever happens after, an object that is not a class looks as it did until there is an operation on
it: what is done to a copy is not seen in the original, nor the other way round. -/
theorem C116_history_partial {s : Bool} {h : Heap} {z : Nat} {w : View} (R : Reach s h) (hw : view h z = some w)
    (hk : w.kind ≠ .module) (ops : List Op) (hops : ∀ op ∈ ops, op.target ≠ some (.ref z)) : view (run h ops) z = some w := by
  replace R := R.weaken
  clear s
  induction ops generalizing h with
  | nil => exact hw
  | cons op ops ih =>
    have hr : ∀ op ∈ ops, op.target ≠ some (.ref z) := fun o ho => hops o (List.mem_cons_of_mem _ ho)
    simp only [run]
    cases e : step h op with
    | error x => exact ih hw hr R
    | ok r =>
      obtain ⟨h', v⟩ := r
      refine ih ?_ hr (.step R nofun e)
      cases ht : op.target with
      | none => exact (C116_fresh R ht e).2 z w hw
      | some x =>
        obtain ⟨_, a, rfl, _, W⟩ := C116_write_partial R ht e
        exact W z w hw (fun h => hops op List.mem_cons_self (by rw [ht, h])) (.inr (.inr hk))

/-- The heap after some operations. -/
def after (ops : List Op) : Heap := run ⟨[], []⟩ ops

theorem reach_run {h : Heap} (R : Reach false h) (ops : List Op) : Reach false (run h ops) := by
  induction ops generalizing h with
  | nil => exact R
  | cons op ops ih =>
    simp only [run]
    cases e : step h op with
    | error x => exact ih R
    | ok r => exact ih (.step R nofun e)

/-- Non-vacuity: `a = [1, "x"]; b = a.dup; a.push(2); b[1] << "y"`: the copy has the two elements, and shares the string. -/
example : let h := after [.stringNew cString [], .append (.ref 0) [120], .arrayOf cArray [.imm 1, .ref 0], .dup (.ref 1),
      .push (.ref 1) (.imm 2), .append (.ref 0) [121]]
    Reach false h ∧ view h 1 = some ⟨.array, cArray, [], .items [.imm 1, .ref 0, .imm 2]⟩ ∧
    view h 2 = some ⟨.array, cArray, [], .items [.imm 1, .ref 0]⟩ ∧
    view h 0 = some ⟨.string, cString, [], .text [120, 121]⟩ :=
  ⟨reach_run .start _, by decide, by decide, by decide⟩

theorem lookup_insert (k v k' : V) (l : List (V × V)) :
    (insert k v l).lookup k' = if k' = k then some v else l.lookup k' := by
  induction l with
  | nil => by_cases h : k' = k <;> simp [insert, List.lookup, h, beq_eq_false_iff_ne.mpr]
  | cons e l ih =>
    obtain ⟨a, b⟩ := e
    unfold insert
    split
    · rename_i ha
      subst ha
      by_cases h : k' = a
      · simp [List.lookup_cons, h]
      · have hn : (k' == a) = false := by simpa using h
        simp [List.lookup_cons, h, hn]
    · rename_i ha
      simp only [List.lookup_cons, ih]
      by_cases h : k' = a
      · subst h; simp [ha]
      · have : (k' == a) = false := by simpa using h
        simp [this]

theorem lookup_setVar (x : Nat) (v : V) (y : Nat) (l : List (Nat × V)) :
    (setVar x v l).lookup y = if y = x then some v else l.lookup y := by
  induction l with
  | nil =>
    by_cases h : y = x
    · simp [setVar, List.lookup, h]
    · have hn : (y == x) = false := by simpa using h
      simp [setVar, List.lookup, h, hn]
  | cons e l ih =>
    obtain ⟨a, b⟩ := e
    unfold setVar
    split
    · rename_i ha
      subst ha
      by_cases h : y = a
      · simp [List.lookup_cons, h]
      · have hn : (y == a) = false := by simpa using h
        simp [List.lookup_cons, h, hn]
    · rename_i ha
      simp only [List.lookup_cons, ih]
      by_cases h : y = a
      · subst h; simp [ha]
      · have : (y == a) = false := by simpa using h
        simp [this]

/-- **C116** (what was written is read).  After `x[k] = v` the hash has `v` under `k` and under the other keys what it had; after
`@y = v` the object has `v` in `@y` and in its other variables what it had. -/
theorem C116_read_back {s : Bool} {h h' : Heap} {a : Nat} {w : View} {u : V} (R : Reach s h) (hw : view h a = some w) :
    (∀ k v l, w.contents = .entries l → step h (.store (.ref a) k v) = .ok (h', u) →
      ∃ l', view h' a = some { w with contents := .entries l' } ∧ ∀ k', l'.lookup k' = if k' = k then some v else l.lookup k') ∧
    (∀ y v, step h (.ivarSet (.ref a) y v) = .ok (h', u) →
      ∃ l', view h' a = some { w with ivars := l' } ∧ ∀ y', l'.lookup y' = if y' = y then some v else w.ivars.lookup y') := by
  constructor
  · intro k v l hl e
    obtain ⟨-, b, hb, hv, -⟩ := C116_write_partial R rfl e
    cases hb
    refine ⟨insert k v l, ?_, fun k' => lookup_insert k v k' l⟩
    rw [hv w hw]
    simp [written, hl]
  · intro y v e
    obtain ⟨-, b, hb, hv, -⟩ := C116_write_partial R rfl e
    cases hb
    exact ⟨setVar y v w.ivars, by rw [hv w hw]; rfl, fun y' => lookup_setVar y v y' _⟩

example : (view (after [.hashNew [], .store (.ref 0) (.imm 1) (.imm 5), .store (.ref 0) (.imm 1) (.imm 6)]) 0).map (·.contents) =
    some (.entries [(.imm 1, .imm 6)]) := by decide

/-- **C116** (violated): a copy of a class shares its methods: after `d = c.dup`, a method defined in `d` is there in `c` too. -/
theorem C116_class_fails :
    let h := after [.classNew cObject, .dup (.ref 0)]
    let h' := after [.classNew cObject, .dup (.ref 0), .define (.ref 1) 7]
    view h 0 = some ⟨.module, cClass, [], .methods (some cObject) []⟩ ∧
    view h' 0 = some ⟨.module, cClass, [], .methods (some cObject) [7]⟩ := by decide

/-- **C116** (violated): a copy of a fiber or enumerator is marked as one, but its state is never written: to resume it reads
memory that was not initialized. -/
theorem C116_fiber_fails :
    let h := after [.fiberNew, .dup (.ref 0)]
    (∃ o, h.objs[1]? = some o ∧ o.kind = .fiber ∧ o.body = .other) ∧
    (match step h (.resume (.ref 1)) with | .error e => e = .wild | .ok _ => False) := by
  exact ⟨⟨_, rfl, rfl, rfl⟩, rfl⟩

/-- **C116** (violated): a copy of an array or a hash loses its class and its instance variables. -/
theorem C116_subclass_fails :
    let h := after [.arrayOf 9 [.imm 1], .ivarSet (.ref 0) 5 (.imm 2), .dup (.ref 0)]
    view h 0 = some ⟨.array, 9, [(5, .imm 2)], .items [.imm 1]⟩ ∧ view h 1 = some ⟨.array, cArray, [], .items [.imm 1]⟩ := by
  decide

/-- **C116** (violated): `Hash.new(0)`, a hash with a default value, is an ArgumentError. -/
theorem C116_hash_default_fails (h : Heap) (v : V) : step h (.hashNew [v]) = .error .argument := rfl

end Verif.Copy
