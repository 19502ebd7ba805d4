import Verif.Eq.Spec
import Verif.Value.Props
/-!
# Lemmas for C81
-/
namespace Verif.Eq
open Verif.Value

variable {σ : Type} (W : World σ)

theorem unpackW_cases (w : Word) :
    (∃ i, Verif.Value.as_fixnum w = some i ∧ unpackW w = .integer i) ∨
    (Verif.Value.as_fixnum w = none ∧ ∃ f, Verif.Value.as_flonum w = some f ∧ unpackW w = .float f) ∨
    (Verif.Value.as_fixnum w = none ∧ Verif.Value.as_flonum w = none ∧
      ∃ x, Verif.Value.as_symbol w = some x ∧ unpackW w = .symbol x) ∨
    (Verif.Value.as_fixnum w = none ∧ Verif.Value.as_flonum w = none ∧ Verif.Value.as_symbol w = none ∧
      (unpackW w = .nil ∨ unpackW w = .true ∨ unpackW w = .false ∨ unpackW w = .uninit ∨ unpackW w = .illegal)) := by
  unfold unpackW Verif.Value.as_symbol
  cases Verif.Value.as_fixnum w with
  | some i => exact .inl ⟨i, rfl, rfl⟩
  | none =>
    cases Verif.Value.as_flonum w with
    | some f => exact .inr (.inl ⟨rfl, f, rfl, rfl⟩)
    | none =>
      cases is_packed_symbol w with
      | true => exact .inr (.inr (.inl ⟨rfl, rfl, _, rfl, rfl⟩))
      | false =>
        refine .inr (.inr (.inr ⟨rfl, rfl, rfl, ?_⟩))
        cases w == NIL_VALUE with
        | true => exact .inl rfl
        | false => cases w == TRUE_VALUE with
          | true => exact .inr (.inl rfl)
          | false => cases w == FALSE_VALUE with
            | true => exact .inr (.inr (.inl rfl))
            | false => cases w == UNINITIALIZED with
              | true => exact .inr (.inr (.inr (.inl rfl)))
              | false => exact .inr (.inr (.inr (.inr rfl)))

/-- The decoders on the word of an immediate value that is no float. -/
theorem load_word {s : Src} {w : Word} (hs : ∀ b, s ≠ .float b) (h : store s = .word w) :
    Verif.Value.as_fixnum w = (match s with | .int n => some n | _ => none) ∧
    Verif.Value.as_flonum w = none ∧
    Verif.Value.as_symbol w = (match s with | .sym x => some x | _ => none) := by
  have hl := C01_roundtrip_partial s (by cases s <;> simp_all [Src.floatOK])
  have hp := (C02_immediate_not_address s w h).2.1
  rw [h] at hl
  unfold load at hl
  rw [show unpack (.word w) = unpackW w by simp only [unpack, hp, if_true]] at hl
  rcases unpackW_cases w with ⟨i, h1, hu⟩ | ⟨h1, f, h2, hu⟩ | ⟨h1, h2, x, h3, hu⟩ | ⟨h1, h2, h3, hu⟩
  · rw [hu] at hl
    obtain rfl := Option.some.inj hl
    refine ⟨h1, ?_, ?_⟩
    · unfold Verif.Value.as_fixnum at h1
      split at h1
      · rename_i hf
        rw [is_fnum, and_one_eq_one] at hf
        rw [Verif.Value.as_flonum, and_three_eq_two, hf]
        rfl
      · simp at h1
    · unfold Verif.Value.as_fixnum at h1
      split at h1
      · rename_i hf
        rw [is_fnum, and_one_eq_one, getLsbD_eq_toNat] at hf
        rw [Verif.Value.as_symbol, if_neg]
        intro hh
        rw [is_packed_symbol_iff] at hh
        simp at hf
        omega
      · simp at h1
  · rw [hu] at hl
    exact absurd (Option.some.inj hl).symm (hs f)
  · rw [hu] at hl
    obtain rfl := Option.some.inj hl
    exact ⟨h1, h2, h3⟩
  · refine ⟨?_, h2, ?_⟩
    · rcases hu with hu | hu | hu | hu | hu <;> rw [hu] at hl <;> cases hl <;> exact h1
    · rcases hu with hu | hu | hu | hu | hu <;> rw [hu] at hl <;> cases hl <;> exact h3

/-- **C01 (what an operation sees).**  The tests by which operations tell immediate values apart see, of the word of an integer,
its value; of the word of a symbol, the symbol; and of other words (not of floats, C01_float_roundtrip_partial) nothing. -/
theorem C01_decoders {s : Src} {w : Word} (hs : ∀ b, s ≠ .float b) (h : store s = .word w) :
    (∀ n, Verif.Value.as_fixnum w = some n ↔ s = .int n) ∧ (∀ b, Verif.Value.as_flonum w ≠ some b) ∧
    (∀ x, Verif.Value.as_symbol w = some x ↔ s = .sym x) := by
  obtain ⟨h1, h2, h3⟩ := load_word hs h
  rw [h1, h2, h3]
  cases s <;> simp

example : store (.sym 7#32) = .word 0x70000000c#64 ∧ Verif.Value.as_symbol 0x70000000c#64 = some 7#32 := by decide

theorem word_inj {s t : Src} {w : Word} (hs : ∀ b, s ≠ .float b) (ht : ∀ b, t ≠ .float b)
    (h1 : store s = .word w) (h2 : store t = .word w) : s = t :=
  C02_no_alias_partial s t (by cases s <;> simp_all [Src.floatOK])
    (by cases t <;> simp_all [Src.floatOK]) (h1.trans h2.symm)

/-- Without floats the numeric shortcuts decide two packed integers, and nothing else. -/
theorem eq2_ref (fuel : Nat) (l r : Nat) (s : σ) :
    eval_eq2 W (fuel + 1) (.ref r) (.ref l) s =
      if l = r then some (some true, s)
      else match W.heap s l, W.heap s r with
          | .big m, .big n => some (some (m == n), s)
          | .flo f, .flo g => some (some (Verif.Hash.f64eq f g), s)
          | .big m, .flo g => some (some (W.intEqF m g), s)
          | .flo f, .big n => some (some (W.intEqF n f), s)
          | .cpx r1 i1, .cpx r2 i2 => some (some (realEq W s r1 r2 && realEq W s i1 i2), s)
          | .str a, .str b => some (some (a.as_bytes == b.as_bytes), s)
          | .arr ls, .arr rs =>
            if ls.length ≠ rs.length then some (some false, s)
            else eqAll (eval_eq2 W fuel) ls rs s
          | .rng s1 e1 x1, .rng s2 e2 x2 =>
            if x2 ≠ x1 then some (some false, s)
            else match eval_eq2 W fuel s2 s1 s with
              | some (some true, s) => eval_eq2 W fuel e2 e1 s
              | x => x
          | .hash, .hash => some (some (W.infoEq l r s), s)
          | .regexp, .regexp => some (some (W.infoEq l r s), s)
          | .time, .time => some (some (W.infoEq l r s), s)
          | _, _ =>
            match W.send (.ref l) (.ref r) s with
            | (some v, s) => some (some (truthy v), s)
            | (none, s) => some (some false, s) := rfl

theorem eq2_imm {a b : Src} {v w : Word} (ha : ∀ f, a ≠ .float f) (hb : ∀ f, b ≠ .float f)
    (h1 : store a = .word v) (h2 : store b = .word w) (fuel : Nat) (s : σ) :
    eval_eq2 W (fuel + 1) (.imm w) (.imm v) s = some (some (decide (a = b)), s) := by
  obtain ⟨f1, g1, _⟩ := load_word ha h1
  obtain ⟨f2, g2, _⟩ := load_word hb h2
  have hw : (V.imm v == V.imm w) = decide (a = b) := by
    by_cases h : a = b
    · subst h
      rw [h1, Val.word.injEq] at h2
      subst h2
      simp
    · rw [decide_eq_false h, beq_eq_false_iff_ne]
      intro e
      cases e
      exact h (word_inj ha hb h1 h2)
  have h0 : eval_eq2 W (fuel + 1) (.imm w) (.imm v) s =
      match Verif.Value.as_fixnum v with
      | some li =>
        match Verif.Value.as_fixnum w with
        | some ri => some (some (li == ri), s)
        | none => match Verif.Value.as_flonum w with
          | some rf => some (some (W.intEqF li rf), s)
          | none => some (some (V.imm v == V.imm w), s)
      | none =>
        match Verif.Value.as_flonum v with
        | some lf =>
          match Verif.Value.as_flonum w with
          | some rf => some (some (Verif.Hash.f64eq lf rf), s)
          | none => match Verif.Value.as_fixnum w with
            | some ri => some (some (W.intEqF ri lf), s)
            | none => some (some (V.imm v == V.imm w), s)
        | none => some (some (V.imm v == V.imm w), s) := rfl
  rw [h0, g1, g2, hw]
  cases a <;> cases b <;> simp_all [beq_eq_decide]

theorem eq2_imm_ref {a : Src} {v : Word} (ha : ∀ f, a ≠ .float f) (h1 : store a = .word v)
    (p fuel : Nat) (s : σ) :
    eval_eq2 W (fuel + 1) (.ref p) (.imm v) s = some (some false, s) ∧
    eval_eq2 W (fuel + 1) (.imm v) (.ref p) s = some (some false, s) := by
  obtain ⟨f1, g1, _⟩ := load_word ha h1
  constructor
  · have h0 : eval_eq2 W (fuel + 1) (.ref p) (.imm v) s =
      match Verif.Value.as_fixnum v with
      | some _ => some (some (V.imm v == V.ref p), s)
      | none => match Verif.Value.as_flonum v with
        | some _ => some (some (V.imm v == V.ref p), s)
        | none => some (some (V.imm v == V.ref p), s) := rfl
    rw [h0, g1]
    have : (V.imm v == V.ref p) = false := by rw [beq_eq_false_iff_ne]; simp
    rw [this]
    split <;> rfl
  · have h0 : eval_eq2 W (fuel + 1) (.imm v) (.ref p) s = some (some (V.ref p == V.imm v), s) := rfl
    rw [h0]
    have : (V.ref p == V.imm v) = false := by rw [beq_eq_false_iff_ne]; simp
    rw [this]

/-- Nobody has redefined `==` of integers, strings, arrays, ranges and so on: calling the method on such a value
runs the method of the interpreter. -/
def Untouched (W : World σ) (s : σ) : Prop :=
  ∀ v d w, Holds (W.heap s) v d →
    ∃ r, W.send v w s = (some r, s) ∧ truthy r = builtin_eq W v w s

mutual
/-- A value says one thing. -/
theorem holds_unique {heap : Nat → Obj} : ∀ {v : V} {d : Datum}, Holds heap v d → ∀ {e : Datum}, Holds heap v e → d = e
  | _, _, .imm ha h1, _, .imm hb h2 => congrArg _ (word_inj ha hb h1 h2)
  | _, _, .big _ h1, _, h => by cases h <;> simp_all
  | _, _, .str h1, _, h => by cases h <;> simp_all
  | _, _, .arr h1 hv, _, .arr h2 hw => by
    rw [h1, Obj.arr.injEq] at h2
    subst h2
    rw [holdsAll_unique hv hw]
  | _, _, .arr h1 hv, _, .big _ h2 => by simp_all
  | _, _, .arr h1 hv, _, .str h2 => by simp_all
  | _, _, .arr h1 hv, _, .rng h2 _ _ => by simp_all
  | _, _, .rng h1 hv hw, _, .rng h2 hv' hw' => by
    rw [h1, Obj.rng.injEq] at h2
    obtain ⟨rfl, rfl, rfl⟩ := h2
    rw [holds_unique hv hv', holds_unique hw hw']
  | _, _, .rng h1 _ _, _, .big _ h2 => by simp_all
  | _, _, .rng h1 _ _, _, .str h2 => by simp_all
  | _, _, .rng h1 _ _, _, .arr h2 _ => by simp_all
theorem holdsAll_unique {heap : Nat → Obj} : ∀ {v : List V} {d : List Datum}, HoldsAll heap v d →
    ∀ {e : List Datum}, HoldsAll heap v e → d = e
  | _, _, .nil, _, .nil => rfl
  | _, _, .cons h hs, _, .cons h' hs' => by rw [holds_unique h h', holdsAll_unique hs hs']
end

theorem HoldsAll.length {heap : Nat → Obj} : ∀ {vs : List V} {ds : List Datum}, HoldsAll heap vs ds →
    vs.length = ds.length
  | _, _, .nil => rfl
  | _, _, .cons _ h => by simp [h.length]

/-- The answer of a comparison that needs no recursion. -/
theorem Answers.now {f : Nat → σ → Out σ} {s : σ} {b : Prop} {t : Bool} (h : t = true ↔ b)
    (hf : ∀ n, f (n + 1) s = some (some t, s)) : Answers f s b :=
  ⟨1, t, h, fun n hn => by obtain ⟨m, rfl⟩ := Nat.exists_eq_succ_of_ne_zero (n := n) (by omega); exact hf m⟩

/-- Two data of different kinds, both objects: the method `==` is called and says no. -/
theorem agrees_other {s : σ} {l r : Nat} {d e : Datum} (hu : Untouched W s) (h : Holds (W.heap s) (.ref l) d)
    (h' : Holds (W.heap s) (.ref r) e) (hd : d ≠ e)
    (hk : ∀ n, eval_eq2 W (n + 1) (.ref r) (.ref l) s =
      if l = r then some (some true, s) else
            match W.send (.ref l) (.ref r) s with
            | (some v, s) => some (some (truthy v), s)
            | (none, s) => some (some false, s))
    (hb : l ≠ r → builtin_eq W (.ref l) (.ref r) s = false) :
    Answers (fun n => eval_eq2 W n (.ref r) (.ref l)) s (d = e) := by
  have hlr : l ≠ r := by
    rintro rfl
    exact hd (holds_unique h h')
  refine .now (t := false) (by simp [hd]) fun n => ?_
  obtain ⟨v, h1, h2⟩ := hu _ _ (.ref r) h
  show eval_eq2 W (n + 1) (.ref r) (.ref l) s = _
  rw [hk, if_neg hlr, h1]
  simp only [h2, hb hlr]

mutual
theorem agrees {s : σ} (hu : Untouched W s) : ∀ {v w : V} {d e : Datum}, Holds (W.heap s) v d →
    Holds (W.heap s) w e → Answers (fun n => eval_eq2 W n w v) s (d = e)
  | _, _, _, _, .imm (s := a) ha h1, .imm (s := b) hb h2 =>
    .now (t := decide (a = b)) (by simp) fun n => eq2_imm W ha hb h1 h2 n s
  | _, _, _, _, .imm ha h1, .big h2 _ =>
    .now (t := false) (by
      simp only [Bool.false_eq_true, Datum.atom.injEq, false_iff]
      rintro rfl
      rw [h1] at h2
      simp at h2) fun n => (eq2_imm_ref W ha h1 _ n s).1
  | _, _, _, _, .imm ha h1, .str _ => .now (t := false) (by simp) fun n => (eq2_imm_ref W ha h1 _ n s).1
  | _, _, _, _, .imm ha h1, .arr _ _ => .now (t := false) (by simp) fun n => (eq2_imm_ref W ha h1 _ n s).1
  | _, _, _, _, .imm ha h1, .rng _ _ _ => .now (t := false) (by simp) fun n => (eq2_imm_ref W ha h1 _ n s).1
  | _, _, _, _, .big h2 _, .imm ha h1 =>
    .now (t := false) (by
      simp only [Bool.false_eq_true, Datum.atom.injEq, false_iff]
      rintro rfl
      rw [h1] at h2
      simp at h2) fun n => (eq2_imm_ref W ha h1 _ n s).2
  | _, _, _, _, .str _, .imm ha h1 => .now (t := false) (by simp) fun n => (eq2_imm_ref W ha h1 _ n s).2
  | _, _, _, _, .arr _ _, .imm ha h1 => .now (t := false) (by simp) fun n => (eq2_imm_ref W ha h1 _ n s).2
  | _, _, _, _, .rng _ _ _, .imm ha h1 => .now (t := false) (by simp) fun n => (eq2_imm_ref W ha h1 _ n s).2
  | .ref l, .ref r, _, _, .big (n := m) _ h1, .big (n := n) _ h2 =>
    .now (t := decide (m = n)) (by simp) fun k => by
      show eval_eq2 W (k + 1) (.ref r) (.ref l) s = _
      rw [eq2_ref]
      by_cases h : l = r
      · subst h
        rw [h1, Obj.big.injEq] at h2
        simp [h2]
      · rw [if_neg h, h1, h2]
        simp only [beq_eq_decide]
  | .ref l, .ref r, _, _, .str (r := a) h1, .str (r := b) h2 =>
    .now (t := decide (a.as_bytes = b.as_bytes)) (by simp) fun k => by
      show eval_eq2 W (k + 1) (.ref r) (.ref l) s = _
      rw [eq2_ref]
      by_cases h : l = r
      · subst h
        rw [h1, Obj.str.injEq] at h2
        simp [h2]
      · rw [if_neg h, h1, h2]
        simp only [beq_eq_decide]
  | .ref l, .ref r, _, _, .arr (vs := vs) (ds := ds) h1 hv, .arr (vs := ws) (ds := es) h2 hw => by
    by_cases h : l = r
    · subst h
      have hd := holds_unique (.arr h1 hv) (.arr h2 hw)
      exact .now (t := true) (by simp [hd]) fun k => by
        show eval_eq2 W (k + 1) (.ref l) (.ref l) s = _
        rw [eq2_ref, if_pos rfl]
    · by_cases hl : vs.length = ws.length
      · obtain ⟨k, t, ht, hk⟩ := agreesAll hu hv hw hl
        refine ⟨k + 1, t, by simpa using ht, fun n hn => ?_⟩
        obtain ⟨m, rfl⟩ := Nat.exists_eq_succ_of_ne_zero (n := n) (by omega)
        show eval_eq2 W (m + 1) (.ref r) (.ref l) s = _
        rw [eq2_ref, if_neg h, h1, h2]
        simp only [hl, ne_eq, not_true_eq_false, if_false]
        exact hk m (by omega)
      · refine .now (t := false) ?_ fun k => ?_
        · simp only [Bool.false_eq_true, Datum.arr.injEq, false_iff]
          rintro rfl
          exact hl (hv.length.trans hw.length.symm)
        · show eval_eq2 W (k + 1) (.ref r) (.ref l) s = _
          rw [eq2_ref, if_neg h, h1, h2]
          simp only [hl, ne_eq, not_false_eq_true, if_true]
  | .ref l, .ref r, _, _, .rng (x := x) (d := d1) (e := e1) h1 hv hw, .rng (x := y) (d := d2) (e := e2) h2 hv' hw' => by
    by_cases h : l = r
    · subst h
      have hd := holds_unique (.rng h1 hv hw) (.rng h2 hv' hw')
      exact .now (t := true) (by simp [hd]) fun k => by
        show eval_eq2 W (k + 1) (.ref l) (.ref l) s = _
        rw [eq2_ref, if_pos rfl]
    · by_cases hx : y = x
      · obtain ⟨k, t, ht, hk⟩ := agrees hu hv hv'
        obtain ⟨k', t', ht', hk'⟩ := agrees hu hw hw'
        refine ⟨k + k' + 1, t && t', ?_, fun n hn => ?_⟩
        · simp [ht, ht', hx]
        · obtain ⟨m, rfl⟩ := Nat.exists_eq_succ_of_ne_zero (n := n) (by omega)
          show eval_eq2 W (m + 1) (.ref r) (.ref l) s = _
          rw [eq2_ref, if_neg h, h1, h2]
          simp only [hx, ne_eq, not_true_eq_false, if_false, hk m (by omega)]
          cases t
          · rfl
          · simp only [hk' m (by omega), Bool.true_and]
      · refine .now (t := false) ?_ fun k => ?_
        · simp only [Bool.false_eq_true, Datum.rng.injEq, false_iff]
          rintro ⟨_, _, rfl⟩
          exact hx rfl
        · show eval_eq2 W (k + 1) (.ref r) (.ref l) s = _
          rw [eq2_ref, if_neg h, h1, h2]
          simp only [hx, ne_eq, not_false_eq_true, if_true]
  | .ref l, .ref r, _, _, .big g h1, .str h2 =>
    agrees_other W hu (.big g h1) (.str h2) (by simp) (fun n => by rw [eq2_ref, h1, h2])
      (fun _ => by simp [builtin_eq, h1, h2])
  | .ref l, .ref r, _, _, .big g h1, .arr h2 f =>
    agrees_other W hu (.big g h1) (.arr h2 f) (by simp) (fun n => by rw [eq2_ref, h1, h2])
      (fun _ => by simp [builtin_eq, h1, h2])
  | .ref l, .ref r, _, _, .big g h1, .rng h2 f f1 =>
    agrees_other W hu (.big g h1) (.rng h2 f f1) (by simp) (fun n => by rw [eq2_ref, h1, h2])
      (fun _ => by simp [builtin_eq, h1, h2])
  | .ref l, .ref r, _, _, .str h1, .big f h2 =>
    agrees_other W hu (.str h1) (.big f h2) (by simp) (fun n => by rw [eq2_ref, h1, h2])
      (fun hn => by simp [builtin_eq, h1, hn])
  | .ref l, .ref r, _, _, .str h1, .arr h2 f =>
    agrees_other W hu (.str h1) (.arr h2 f) (by simp) (fun n => by rw [eq2_ref, h1, h2])
      (fun hn => by simp [builtin_eq, h1, hn])
  | .ref l, .ref r, _, _, .str h1, .rng h2 f f1 =>
    agrees_other W hu (.str h1) (.rng h2 f f1) (by simp) (fun n => by rw [eq2_ref, h1, h2])
      (fun hn => by simp [builtin_eq, h1, hn])
  | .ref l, .ref r, _, _, .arr h1 g, .big f h2 =>
    agrees_other W hu (.arr h1 g) (.big f h2) (by simp) (fun n => by rw [eq2_ref, h1, h2])
      (fun hn => by simp [builtin_eq, h1, hn])
  | .ref l, .ref r, _, _, .arr h1 g, .str h2 =>
    agrees_other W hu (.arr h1 g) (.str h2) (by simp) (fun n => by rw [eq2_ref, h1, h2])
      (fun hn => by simp [builtin_eq, h1, hn])
  | .ref l, .ref r, _, _, .arr h1 g, .rng h2 f f1 =>
    agrees_other W hu (.arr h1 g) (.rng h2 f f1) (by simp) (fun n => by rw [eq2_ref, h1, h2])
      (fun hn => by simp [builtin_eq, h1, hn])
  | .ref l, .ref r, _, _, .rng h1 g g1, .big f h2 =>
    agrees_other W hu (.rng h1 g g1) (.big f h2) (by simp) (fun n => by rw [eq2_ref, h1, h2])
      (fun hn => by simp [builtin_eq, h1, hn])
  | .ref l, .ref r, _, _, .rng h1 g g1, .str h2 =>
    agrees_other W hu (.rng h1 g g1) (.str h2) (by simp) (fun n => by rw [eq2_ref, h1, h2])
      (fun hn => by simp [builtin_eq, h1, hn])
  | .ref l, .ref r, _, _, .rng h1 g g1, .arr h2 f =>
    agrees_other W hu (.rng h1 g g1) (.arr h2 f) (by simp) (fun n => by rw [eq2_ref, h1, h2])
      (fun hn => by simp [builtin_eq, h1, hn])
theorem agreesAll {s : σ} (hu : Untouched W s) : ∀ {vs ws : List V} {ds es : List Datum},
    HoldsAll (W.heap s) vs ds → HoldsAll (W.heap s) ws es → vs.length = ws.length →
    Answers (fun n => eqAll (eval_eq2 W n) vs ws) s (ds = es)
  | _, _, _, _, .nil, .nil, _ => ⟨0, true, by simp, fun _ _ => rfl⟩
  | _, _, _, _, .cons h hs, .cons h' hs', hl => by
    obtain ⟨k, t, ht, hk⟩ := agrees hu h h'
    obtain ⟨k', t', ht', hk'⟩ := agreesAll hu hs hs' (by simpa using hl)
    refine ⟨k + k', t && t', by simp [ht, ht'], fun n hn => ?_⟩
    simp only [eqAll, hk n (by omega)]
    cases t
    · rfl
    · exact hk' n (by omega)
end

end Verif.Eq
