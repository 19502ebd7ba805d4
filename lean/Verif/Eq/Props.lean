import Verif.Eq.Lemmas
/-!
# C81: `==` on data is equality of what the data says
-/
namespace Verif.Eq
open Verif.Value

variable {σ : Type} (W : World σ)

/-- `a == b` for data: true if and only if both say the same, whatever their objects and representations; it ends,
raises nothing and changes nothing. What is missing: floats, hashes and complex numbers (C80). -/
theorem C81_eq_partial {s : σ} {a b : V} {d e : Datum} (hu : Untouched W s) (ha : Holds (W.heap s) a d)
    (hb : Holds (W.heap s) b e) : Answers (fun n => eval_eq W n a b) s (d = e) :=
  agrees W hu ha hb

/-- `a != b` is the contrary. -/
theorem C81_ne_partial {s : σ} {a b : V} {d e : Datum} (hu : Untouched W s) (ha : Holds (W.heap s) a d)
    (hb : Holds (W.heap s) b e) : Answers (fun n => eval_ne W n a b) s (d ≠ e) := by
  obtain ⟨k, t, ht, hk⟩ := agrees W hu ha hb
  refine ⟨k, !t, by simp [← ht], fun n hn => ?_⟩
  have := hk n hn
  simp only [eval_ne, eval_eq] at this ⊢
  rw [this]
  rfl

/-- `v === x` and `case x when v`, for data `v`, and the test of `any?`, `all?` and `grep`. -/
theorem C81_case_partial {s : σ} {v x : V} {d e : Datum} (hu : Untouched W s) (hv : Holds (W.heap s) v d)
    (hx : Holds (W.heap s) x e) :
    Answers (fun n => invoke_teq W n v x) s (d = e) ∧ Answers (fun n => eval_teq W n x v) s (d = e) := by
  have h1 := agrees W hu hv hx
  have h2 : Answers (fun n => eval_eq2 W n v x) s (d = e) := by
    obtain ⟨k, t, ht, hk⟩ := agrees W hu hx hv
    exact ⟨k, t, ht.trans eq_comm, hk⟩
  obtain ⟨k, t, ht, hk⟩ := h1
  obtain ⟨k', t', ht', hk'⟩ := h2
  refine ⟨⟨k, t, ht, fun n hn => ?_⟩, ⟨k', t', ht', fun n hn => ?_⟩⟩
  · have := hk n hn
    cases hv <;> simp_all [invoke_teq]
  · have := hk' n hn
    cases hv <;> simp_all [eval_teq]

/-- `case x when C` for a class or module, and the test of `any?`, `all?` and `grep`: the method `===` of the class is asked; its
answer counts as true unless it is `nil` or `false`; what it raises is raised. -/
theorem C81_case_class {s : σ} {a : Nat} {x : V} (hm : W.heap s a = .module) (n : Nat) :
    (∀ v s', W.teq (.ref a) x s = (some v, s') → ∃ t, invoke_teq W n (.ref a) x s = some (some t, s') ∧
      eval_teq W n x (.ref a) s = some (some t, s') ∧
      ((∃ p, v = .ref p) → t = true) ∧ ∀ w d, v = .imm w → store d = .word w → (t = false ↔ d = .nil ∨ d = .fls)) ∧
    (∀ s', W.teq (.ref a) x s = (none, s') → invoke_teq W n (.ref a) x s = some (none, s') ∧
      eval_teq W n x (.ref a) s = some (none, s')) := by
  refine ⟨fun v s' h => ⟨truthy v, ?_, ?_, ?_, ?_⟩, fun s' h => ⟨?_, ?_⟩⟩
  · simp only [invoke_teq, hm, h]
  · simp only [eval_teq, hm, h]
  · rintro ⟨p, rfl⟩; rfl
  · rintro w d rfl hd; exact C03_truthiness d w hd
  · simp only [invoke_teq, hm, h]
  · simp only [eval_teq, hm, h]

/-- `case x when /re/`: the regular expression is matched with `x`. -/
theorem C81_case_regexp {s : σ} {a : Nat} {x : V} (hm : W.heap s a = .regexp) (n : Nat) :
    invoke_teq W n (.ref a) x s = some (W.rmatch (.ref a) x s) ∧ eval_teq W n x (.ref a) s = some (W.rmatch (.ref a) x s) := by
  simp only [invoke_teq, eval_teq, hm, and_self]

/-- The numbers a literal of the source can be in the instruction. -/
def InI32 (i : Int) : Prop := -2 ^ 31 ≤ i ∧ i < 2 ^ 31

/-- `a == 3` with a literal, which is compiled in another way. -/
theorem C81_literal_partial {s : σ} {a : V} {d : Datum} (i : Int) (hi : InI32 i) (hu : Untouched W s)
    (ha : Holds (W.heap s) a d) :
    ∃ t, eval_eqi W a i s = (some t, s) ∧ eval_nei W a i s = (some (!t), s) ∧ (t = true ↔ d = .atom (.int i)) := by
  suffices h : ∃ t, eval_eqi W a i s = (some t, s) ∧ (t = true ↔ d = .atom (.int i)) by
    obtain ⟨t, h1, h2⟩ := h
    exact ⟨t, h1, by rw [eval_nei, h1]; rfl, h2⟩
  have hi3 : InI63 i := by unfold InI32 at hi; unfold InI63; omega
  have hw : store (.int i) = .word (fixnumW (BitVec.ofInt 64 i)) := by
    have h4 : InI64 i := by unfold InI63 at hi3; unfold InI64; omega
    simp only [store, bignum, if_pos h4, integer, if_pos ((is_i63_iff i h4).2 hi3)]
  obtain ⟨f2, g2, h2⟩ := load_word (by simp) hw
  have hcall : ∀ {a : V}, Holds (W.heap s) a d → ∃ t, t = builtin_eq W a (lit i) s ∧
      (match W.send a (lit i) s with
        | (some v, s) => (some (truthy v), s)
        | (none, s) => (none, s)) = (some t, s) := by
    intro a ha
    obtain ⟨r, h1, h2⟩ := hu a d (lit i) ha
    exact ⟨_, rfl, by rw [h1]; simp only [h2]⟩
  obtain ⟨t, ht, hc⟩ := hcall ha
  cases ha with
  | @imm x w hx h1 =>
    obtain ⟨f1, g1, k1⟩ := load_word hx h1
    cases x with
    | int n => exact ⟨decide (n = i), by simp [eval_eqi, V.as_fixnum, f1, beq_eq_decide], by simp⟩
    | float b => exact absurd rfl (hx b)
    | sym x =>
      refine ⟨t, ?_, ?_⟩
      · simp only [eval_eqi, V.as_fixnum, V.as_flonum, f1, g1]
        exact hc
      · rw [ht]
        simp [builtin_eq, k1, lit, h2]
    | nil =>
      refine ⟨t, ?_, ?_⟩
      · simp only [eval_eqi, V.as_fixnum, V.as_flonum, f1, g1]
        exact hc
      · rw [ht]
        have : w ≠ fixnumW (BitVec.ofInt 64 i) := by
          rintro rfl
          exact absurd (word_inj (by simp) (by simp) hw h1) (by simp)
        simp [builtin_eq, k1, lit, this]
    | tru =>
      refine ⟨t, ?_, ?_⟩
      · simp only [eval_eqi, V.as_fixnum, V.as_flonum, f1, g1]
        exact hc
      · rw [ht]
        have : w ≠ fixnumW (BitVec.ofInt 64 i) := by
          rintro rfl
          exact absurd (word_inj (by simp) (by simp) hw h1) (by simp)
        simp [builtin_eq, k1, lit, this]
    | fls =>
      refine ⟨t, ?_, ?_⟩
      · simp only [eval_eqi, V.as_fixnum, V.as_flonum, f1, g1]
        exact hc
      · rw [ht]
        have : w ≠ fixnumW (BitVec.ofInt 64 i) := by
          rintro rfl
          exact absurd (word_inj (by simp) (by simp) hw h1) (by simp)
        simp [builtin_eq, k1, lit, this]
  | @big p n h1 h3 =>
    refine ⟨t, ?_, ?_⟩
    · simp only [eval_eqi, V.as_fixnum, V.as_flonum, h3]
      exact hc
    · rw [ht]
      have : n ≠ i := by
        rintro rfl
        rw [hw] at h1
        simp at h1
      simp [builtin_eq, h3, lit, f2, this]
  | @str p r h3 =>
    refine ⟨t, ?_, ?_⟩
    · simp only [eval_eqi, V.as_fixnum, V.as_flonum, h3]
      exact hc
    · rw [ht]
      simp [builtin_eq, h3, lit]
  | @arr p vs ds h3 _ =>
    refine ⟨t, ?_, ?_⟩
    · simp only [eval_eqi, V.as_fixnum, V.as_flonum, h3]
      exact hc
    · rw [ht]
      simp [builtin_eq, h3, lit]
  | @rng p v w d1 d2 x h3 _ _ =>
    refine ⟨t, ?_, ?_⟩
    · simp only [eval_eqi, V.as_fixnum, V.as_flonum, h3]
      exact hc
    · rw [ht]
      simp [builtin_eq, h3, lit]

/-- `array.include?(x)` for data: is what `x` says among what the elements say? -/
theorem C81_include_partial {s : σ} {x : V} {vs : List V} {e : Datum} {ds : List Datum} (hu : Untouched W s)
    (hx : Holds (W.heap s) x e) (hs : HoldsAll (W.heap s) vs ds) :
    Answers (fun n => include_ W n x vs) s (e ∈ ds) := by
  induction vs generalizing ds with
  | nil =>
    cases hs
    exact ⟨0, false, by simp, fun _ _ => rfl⟩
  | cons v vs ih =>
    cases hs with
    | cons h1 h2 =>
      obtain ⟨k, t, ht, hk⟩ := agrees W hu hx h1
      obtain ⟨k', t', ht', hk'⟩ := ih h2
      refine ⟨k + k', t || t', by simp [ht, ht'], fun n hn => ?_⟩
      simp only [include_, hk n (by omega)]
      cases t
      · exact hk' n (by omega)
      · rfl

open Classical in
/-- `array.count(x)` for data: how many elements say what `x` says. -/
theorem C81_count_partial {s : σ} {x : V} {vs : List V} {e : Datum} {ds : List Datum} (hu : Untouched W s)
    (hx : Holds (W.heap s) x e) (hs : HoldsAll (W.heap s) vs ds) :
    ∃ k, ∀ n ≥ k, count W n x vs 0 s = some (some (ds.countP (fun d => decide (d = e))), s) := by
  suffices h : ∀ c, ∃ k, ∀ n ≥ k, count W n x vs c s =
      some (some (c + ds.countP (fun d => decide (d = e))), s) by
    obtain ⟨k, hk⟩ := h 0
    exact ⟨k, fun n hn => by rw [hk n hn, Nat.zero_add]⟩
  induction vs generalizing ds with
  | nil =>
    cases hs
    exact fun c => ⟨0, fun _ _ => rfl⟩
  | cons v vs ih =>
    intro c
    cases hs with
    | cons h1 h2 =>
      obtain ⟨k, t, ht, hk⟩ := agrees W hu hx h1
      cases t
      · obtain ⟨k', hk'⟩ := ih h2 c
        refine ⟨k + k', fun n hn => ?_⟩
        have : ¬ _ = e := fun h => absurd (ht.2 h.symm) (by simp)
        simp only [count, hk n (by omega), hk' n (by omega), List.countP_cons, this, decide_false,
          Bool.false_eq_true, if_false, Nat.add_zero]
      · obtain ⟨k', hk'⟩ := ih h2 (c + 1)
        refine ⟨k + k', fun n hn => ?_⟩
        have : _ = e := (ht.1 rfl).symm
        simp only [count, hk n (by omega), hk' n (by omega), List.countP_cons, this, decide_true, if_true]
        rw [Nat.add_assoc, Nat.add_comm 1]

/-- `==` on data is an equivalence; `T x y` stands for "`x == y` answers true". -/
theorem C81_equivalence_partial {s : σ} {a b c : V} {d e f : Datum} (hu : Untouched W s) (ha : Holds (W.heap s) a d)
    (hb : Holds (W.heap s) b e) (hc : Holds (W.heap s) c f) (T : V → V → Prop)
    (hT : ∀ x y, T x y ↔ Answers (fun n => eval_eq W n x y) s True) :
    T a a ∧ (T a b → T b a) ∧ (T a b → T b c → T a c) := by
  have key : ∀ {x y : V} {p q : Datum}, Holds (W.heap s) x p → Holds (W.heap s) y q → (T x y ↔ p = q) := by
    intro x y p q hx hy
    obtain ⟨k, t, ht, hk⟩ := agrees W hu hx hy
    rw [hT]
    constructor
    · rintro ⟨k', t', ht', hk'⟩
      have h1 := hk (k + k') (by omega)
      have h2 := hk' (k + k') (by omega)
      simp only [eval_eq] at h1 h2
      rw [h1] at h2
      simp only [Option.some.injEq, Prod.mk.injEq, and_true] at h2
      exact ht.1 (h2.trans (ht'.2 trivial))
    · intro h
      exact ⟨k, t, by simp [ht, h], hk⟩
  rw [key ha ha, key ha hb, key hb ha, key hb hc, key ha hc]
  exact ⟨rfl, Eq.symm, Eq.trans⟩

/-! ### A case: `["ab", 2**70, nil..:x]` twice, in different objects -/

def toyHeap : Nat → Obj
  | 1 => .arr [.ref 3, .ref 4, .ref 5]
  | 2 => .arr [.ref 6, .ref 7, .ref 8]
  | 3 => .str (.small [97, 98])
  | 6 => .str (.str [97, 98])
  | 4 => .big (2 ^ 70)
  | 7 => .big (2 ^ 70)
  | 5 => .rng (.imm NIL_VALUE) (.imm (0x70000000c#64)) false
  | 8 => .rng (.imm NIL_VALUE) (.imm (0x70000000c#64)) false
  | 10 => .arr [.ref 10]
  | 11 => .arr [.ref 11]
  | 12 => .flo 0x7ff8000000000000#64
  | 13 => .big (2 ^ 62)
  | _ => .other

/-- A world in which nobody has redefined anything. -/
def toy : World Unit where
  heap _ := toyHeap
  send a b s :=
    (some (.imm (if builtin_eq (σ := Unit) ⟨fun _ => toyHeap, fun _ _ s => (none, s), fun _ _ s => (none, s),
      fun _ _ s => (none, s), fun _ _ _ => false, fun i f => Verif.Hash.f64eq (asF64 i) f⟩ a b s
      then TRUE_VALUE else FALSE_VALUE)), s)
  teq _ _ s := (none, s)
  rmatch _ _ s := (none, s)
  infoEq _ _ _ := false
  intEqF i f := Verif.Hash.f64eq (asF64 i) f

theorem toy_untouched : Untouched toy () := by
  intro v d w _
  refine ⟨_, rfl, ?_⟩
  have : ∀ b : Bool, truthy (.imm (if b then TRUE_VALUE else FALSE_VALUE)) = b := by decide
  exact this _

def toyDatum : Datum := .arr [.str [97, 98], .atom (.int (2 ^ 70)), .rng (.atom .nil) (.atom (.sym 7#32)) false]

theorem toy_holds : Holds toyHeap (.ref 1) toyDatum ∧ Holds toyHeap (.ref 2) toyDatum :=
  ⟨.arr rfl (.cons (.str (r := .small _) rfl) (.cons (.big (by decide +kernel) rfl)
      (.cons (.rng rfl (.imm (by simp) rfl) (.imm (by simp) (by decide +kernel))) .nil))),
    .arr rfl (.cons (.str (r := .str _) rfl) (.cons (.big (by decide +kernel) rfl)
      (.cons (.rng rfl (.imm (by simp) rfl) (.imm (by simp) (by decide +kernel))) .nil)))⟩

example : Answers (fun n => eval_eq toy n (.ref 1) (.ref 2)) () True ∧
    Answers (fun n => eval_eq toy n (.ref 1) (.ref 3)) () False := by
  have h3 : Holds toyHeap (.ref 3) (.str [97, 98]) := .str (r := .small _) rfl
  have h1 := C81_eq_partial toy toy_untouched toy_holds.1 toy_holds.2
  have h2 := C81_eq_partial toy toy_untouched toy_holds.1 h3
  rw [eq_self_iff_true] at h1
  rw [show (toyDatum = .str [97, 98]) = False by simp [toyDatum]] at h2
  exact ⟨h1, h2⟩

example : InI32 5 ∧ ∃ t, eval_eqi toy (.ref 1) 5 () = (some t, ()) ∧ t = false := by
  refine ⟨by unfold InI32; omega, ?_⟩
  obtain ⟨t, h1, _, h2⟩ := C81_literal_partial toy 5 (by unfold InI32; omega) toy_untouched toy_holds.1
  refine ⟨t, h1, ?_⟩
  cases t
  · rfl
  · exact absurd (h2.1 rfl) (by simp [toyDatum])

/-! ### What is not so -/

/-- **Violation**: with floats `==` is not transitive: `2**53 == 2.0**53` and `2.0**53 == 2**53+1` are true, as the
integer is rounded to a float (ops.rs:363, 374); in Ruby the second is false. -/
theorem C81_float_fails : ∃ (W : World Unit) (a b c : V), (∀ i f, W.intEqF i f = Verif.Hash.f64eq (asF64 i) f) ∧
    eval_eq W 1 a b () = some (some true, ()) ∧ eval_eq W 1 b c () = some (some true, ()) ∧
    eval_eq W 1 a c () = some (some false, ()) :=
  ⟨toy, lit (2 ^ 53), .imm (floatW 0x4340000000000000#64), lit (2 ^ 53 + 1), fun _ _ => rfl, by decide +kernel,
    by decide +kernel, by decide +kernel⟩

/-- **Violation**: `2**62 == 2.0**62` is false: an object and a packed value are compared by their words
(ops.rs:377-379). -/
theorem C81_big_float_fails {s : σ} {a : Nat} (_h : W.heap s a = .big (2 ^ 62)) (n : Nat) :
    asF64 (2 ^ 62) = 0x43d0000000000000#64 ∧
    Verif.Value.as_flonum (floatW 0x43d0000000000000#64) = some 0x43d0000000000000#64 ∧
    eval_eq W (n + 1) (.ref a) (.imm (floatW 0x43d0000000000000#64)) s = some (some false, s) :=
  ⟨by decide +kernel, by decide +kernel, rfl⟩

/-- **Violation**: a NaN is equal to itself if it is the same object (ops.rs:380-382). -/
theorem C81_nan_fails {s : σ} {a : Nat} (_h : W.heap s a = .flo 0x7ff8000000000000#64) (n : Nat) :
    Verif.Hash.isNaNBits 0x7ff8000000000000#64 = true ∧ eval_eq W (n + 1) (.ref a) (.ref a) s = some (some true, s) :=
  ⟨by decide +kernel, by rw [eval_eq, eq2_ref, if_pos rfl]⟩

/-- **Violation**: `a = []; a << a; b = []; b << b; a == b` does not end (the stack of the process overflows). -/
theorem C81_cyclic_fails {s : σ} {a b : Nat} (hab : a ≠ b) (ha : W.heap s a = .arr [.ref a])
    (hb : W.heap s b = .arr [.ref b]) : ∀ n, eval_eq W n (.ref a) (.ref b) s = none
  | 0 => rfl
  | n + 1 => by
    have ih := C81_cyclic_fails hab ha hb n
    rw [eval_eq] at ih
    rw [eval_eq, eq2_ref, if_neg hab, ha, hb]
    simp only [List.length_cons, ne_eq, not_true_eq_false, if_false, eqAll, ih]

/-- **Violation**: an object whose class defines `==` is never equal to an integer in a variable, a symbol, `nil`,
`true` or `false`: the method is not called (ops.rs:377-379). But it is called for an integer written as a literal. -/
theorem C81_own_method_fails {s s' : σ} {a : Nat} {r : V} (ha : W.heap s a = .other)
    (hr : W.send (.ref a) (lit 1) s = (some r, s')) (ht : truthy r = true) :
    (∀ n w, eval_eq W (n + 1) (.ref a) (.imm w) s = some (some false, s)) ∧
    eval_eqi W (.ref a) 1 s = (some true, s') := by
  refine ⟨fun n w => ?_, ?_⟩
  · have : eval_eq W (n + 1) (.ref a) (.imm w) s = some (some (V.ref a == V.imm w), s) := rfl
    rw [this]
    have : (V.ref a == V.imm w) = false := by rw [beq_eq_false_iff_ne]; simp
    rw [this]
  · simp only [eval_eqi, V.as_fixnum, V.as_flonum, ha, hr, ht]

/-- **Violation**: an exception raised by a method `==` is dropped and counts as false (ops.rs:428-431). -/
theorem C81_raise_fails {s s' : σ} {a b : Nat} (hab : a ≠ b) (ha : W.heap s a = .other)
    (hr : W.send (.ref a) (.ref b) s = (none, s')) (n : Nat) :
    eval_eq W (n + 1) (.ref a) (.ref b) s = some (some false, s') := by
  rw [eval_eq, eq2_ref, if_neg hab, ha]
  simp only [hr]

/-- **Violation**: called as a method (`"ab".send(:==, "ab")`), `==` of strings, arrays and ranges is identity: they
have no such method but that of `Object` (object.rs:14). -/
theorem C81_send_fails : ∃ (W : World Unit) (a b : V) (d : Datum), Untouched W () ∧ Holds (W.heap ()) a d ∧
    Holds (W.heap ()) b d ∧ ∃ r, W.send a b () = (some r, ()) ∧ truthy r = false :=
  ⟨toy, .ref 1, .ref 2, toyDatum, toy_untouched, toy_holds.1, toy_holds.2, _, rfl, by decide +kernel⟩

end Verif.Eq
