import Verif.Class.Props
import Verif.Class.Cache
/-!
# C56: `superclass`, `class` and `instance_of?`
-/
namespace Verif.Class

/-! ## Model -/

/-- `Kernel#instance_of?` (builtin/object.rs:166-171), of an object that is not packed. -/
def instanceOf (n : Nat) (h : Heap) (x k : Addr) : Option Bool :=
  match getClass n h x with
  | some (some c) => some (decide (k = c))
  | _ => none

/-! ## Specification -/

/-- From the class `c`, going up from singleton classes to the classes they were derived from, one arrives at `d`. -/
inductive Below (h : Heap) : Addr → Addr → Prop
  | here {c} : h.isSingleton c = false → Below h c c
  | up {c s d} : h.isSingleton c = true → superOf h.log c = some s → Below h s d → Below h c d

/-! ## Helpers -/

theorem realClassLoop_below {h : Heap} (I : Inv h) : ∀ {n c d}, Real h c → realClassLoop h n c = some (some d) → Below h c d
  | 0, _, _, _, e => by cases e
  | n + 1, c, d, hc, e => by
    unfold realClassLoop at e
    split at e
    · rename_i hs
      split at e
      · cases e
      · cases e
      · rename_i s hsup
        have h1 := superclass_super I hc hsup
        exact .up hs h1 (realClassLoop_below I (I.sup c s h1).2.1 e)
    · rename_i hs
      simp only [Option.some.injEq] at e
      subst e
      exact .here (by simpa using hs)

theorem Below.plain {h : Heap} {c d : Addr} (a : Below h c d) : h.isSingleton d = false := by
  induction a with
  | here hs => exact hs
  | up _ _ _ ih => exact ih

theorem Below.unique {h : Heap} {c d d' : Addr} (a : Below h c d) (b : Below h c d') : d = d' := by
  induction a with
  | here hs =>
    cases b with
    | here => rfl
    | up hs' => rw [hs] at hs'; cases hs'
  | up hs h1 _ ih =>
    cases b with
    | here hs' => rw [hs] at hs'; cases hs'
    | up _ h2 b => rw [h1] at h2; cases h2; exact ih b

/-! ## C56 -/

/-- `C.superclass` is the class that `C` was derived from when it was made, whatever modules were included or prepended since; it is a
class, and made before `C`.  It is nil only for a class derived from nothing. -/
theorem C56_superclass {h : Heap} (R : Reach h) {c : Addr} (hc : Real h c) {n : Nat} (hn : h.next < n) :
    superclass n h c = some (superOf h.log c) ∧ ∀ s, superOf h.log c = some s → IsClass h s ∧ s < c := by
  have I := R.good.toInv
  refine ⟨?_, fun s hs => ⟨(I.sup c s hs).2, (I.sup c s hs).1⟩⟩
  obtain ⟨b, sb, cb, eb⟩ := I.body c hc
  rcases hs : superOf h.log c with _ | t
  · rw [hs] at sb
    have hlen : b.length ≤ h.next := nodup_length sb.nodup fun x hx => (cb x hx).1
    exact superLoop_none sb (fun x hx => (cb x hx).included) (by omega)
  · rw [hs] at sb
    obtain ⟨_, hsr, _⟩ := I.sup c t hs
    have hlen : b.length ≤ h.next := by
      obtain ⟨l', _, s', _⟩ := I.chain t hsr
      have nd := (sb.cons_none s').nodup
      exact nodup_length (List.Nodup.of_append_left nd) fun x hx => (cb x hx).1
    exact superLoop_spec sb (fun x hx => (cb x hx).included) hsr.included (by omega)

/-- `x.class` is never a singleton class: it is the class that those of `x` were derived from.  `x.instance_of?(K)` holds for exactly that
class.  Partial: that `x.class` always has an answer is shown only for objects without a singleton class (`C56_class_plain`). -/
theorem C56_class_partial {h : Heap} (R : Reach h) {x c : Addr} {n : Nat} (e : getClass n h x = some (some c)) :
    h.isSingleton c = false ∧ Below h (h.obj x).cls c ∧ ∀ k, ∃ b, instanceOf n h x k = some b ∧ (b = true ↔ Below h (h.obj x).cls k) := by
  have b := realClassLoop_below R.good.toInv (R.good.cls x).1 e
  refine ⟨b.plain, b, fun k => ⟨decide (k = c), by simp only [instanceOf, e], ?_⟩⟩
  rw [decide_eq_true_iff]
  exact ⟨fun hk => hk ▸ b, fun hk => hk.unique b⟩

/-- An object without a singleton class is an instance of the class it was made by, and of no other; it is of the kinds among the
ancestors of that class, the class itself included. -/
theorem C56_class_plain {h : Heap} (R : Reach h) {x : Addr} (hs : h.isSingleton (h.obj x).cls = false) {n : Nat} (hn : h.next + 1 < n) :
    getClass n h x = some (some (h.obj x).cls) ∧ (∀ k, instanceOf n h x k = some true ↔ k = (h.obj x).cls) ∧
    teqModule n h (h.obj x).cls x = some true := by
  have hg : getClass n h x = some (some (h.obj x).cls) := by
    obtain ⟨k, rfl⟩ : ∃ k, n = k + 1 := ⟨n - 1, by omega⟩
    simp [getClass, realClassLoop, hs]
  refine ⟨hg, fun k => by simp [instanceOf, hg], ?_⟩
  have G := R.good
  obtain ⟨ch, w, s, len, _⟩ := G.toInv.chain _ (G.cls x).1
  rw [teqModule, hg]
  simp only
  rw [includeModule_spec s (by omega)]
  have : (h.obj x).cls = realModule h (h.obj x).cls := by
    rw [(G.cls x).1.real G.toInv, G.toInv.ext _ (G.cls x).1]
  simp only [Option.some.injEq, decide_eq_true_eq]
  exact List.mem_map.2 ⟨_, List.mem_cons_self, this.symm⟩

/-! ## Instances -/

/-- Class 6 derived from Object, with a module included and one prepended; class 9 derived from it, and an instance. -/
example : runs [.newModule, .newClass 1, .newClass 6, .prep 6 5, .newObject 9] (fun h => h.realB 9 && h.realB 6 &&
    decide (superclass 60 h 9 = some (some 6)) && decide (superclass 60 h 6 = some (some 1)) &&
    decide (getClass 60 h 13 = some (some 9)) && decide (instanceOf 60 h 13 9 = some true) &&
    decide (instanceOf 60 h 13 6 = some false)) = true := by decide +kernel

/-- An object with a singleton class. -/
example : runs [.newObject 1, .singleton 5] (fun h => h.isSingleton (h.obj 5).cls && decide (getClass 60 h 5 = some (some 1)) &&
    decide (instanceOf 60 h 5 1 = some true) && decide (instanceOf 60 h 5 0 = some false)) = true := by decide +kernel

end Verif.Class
