import Verif.Eq.Props
/-!
# C81: floats, and `==` called as a method
-/
namespace Verif.Eq
open Verif.Value
open Verif.Hash (f64eq)

variable {σ : Type} (W : World σ)

/-- In this heap the value `v` is the float with these bits. The two floats that change when they are packed (C01) are left out. -/
inductive IsFloat (heap : Nat → Obj) : V → Word → Prop
  | imm {f w : Word} : (Src.float f).floatOK → store (.float f) = .word w → IsFloat heap (.imm w) f
  | obj {a : Nat} {f : Word} : store (.float f) = .flo f → heap a = .flo f → IsFloat heap (.ref a) f

/-- The decoders on the word of a float. -/
theorem load_float {f w : Word} (hf : (Src.float f).floatOK) (h : store (.float f) = .word w) :
    Verif.Value.as_fixnum w = none ∧ Verif.Value.as_flonum w = some f := by
  have hl := C01_roundtrip_partial (.float f) hf
  have hp := (C02_immediate_not_address (.float f) w h).2.1
  rw [h] at hl
  unfold load at hl
  rw [show unpack (.word w) = unpackW w by simp only [unpack, hp, if_true]] at hl
  rcases unpackW_cases w with ⟨i, h1, hu⟩ | ⟨h1, g, h2, hu⟩ | ⟨h1, h2, x, h3, hu⟩ | ⟨h1, h2, h3, hu⟩
  · rw [hu] at hl
    cases hl
  · rw [hu] at hl
    cases hl
    exact ⟨h1, h2⟩
  · rw [hu] at hl
    cases hl
  · rcases hu with hu | hu | hu | hu | hu <;> rw [hu] at hl <;> cases hl

theorem eq2_words (v w : Word) (n : Nat) (s : σ) :
    eval_eq W (n + 1) (.imm v) (.imm w) s =
      match Verif.Value.as_fixnum v with
      | some li => match Verif.Value.as_fixnum w with
        | some ri => some (some (li == ri), s)
        | none => match Verif.Value.as_flonum w with
          | some rf => some (some (W.intEqF li rf), s)
          | none => some (some (V.imm v == V.imm w), s)
      | none => match Verif.Value.as_flonum v with
        | some lf => match Verif.Value.as_flonum w with
          | some rf => some (some (f64eq lf rf), s)
          | none => match Verif.Value.as_fixnum w with
            | some ri => some (some (W.intEqF ri lf), s)
            | none => some (some (V.imm v == V.imm w), s)
        | none => some (some (V.imm v == V.imm w), s) := rfl

/-- **C81** (floats and literals). A float, packed or not, compared with an integer literal: as numbers. -/
theorem C81_float_literal_partial {s : σ} {v : V} {f : Word} (h : IsFloat (W.heap s) v f) (i : Int) :
    eval_eqi W v i s = (some (W.intEqF i f), s) ∧ eval_nei W v i s = (some (!W.intEqF i f), s) := by
  have h1 : eval_eqi W v i s = (some (W.intEqF i f), s) := by
    cases h with
    | imm hf hw =>
      obtain ⟨h1, h2⟩ := load_float hf hw
      simp only [eval_eqi, V.as_fixnum, V.as_flonum, h1, h2]
    | obj _ ha => simp only [eval_eqi, V.as_fixnum, V.as_flonum, ha]
  exact ⟨h1, by rw [eval_nei, h1]; rfl⟩

/-- **C81** (floats). Two floats are compared as numbers, except that one object is always equal to itself (`C81_nan_fails`). -/
theorem C81_floats_partial {s : σ} {v w : V} {f g : Word} (hv : IsFloat (W.heap s) v f) (hw : IsFloat (W.heap s) w g)
    (hne : ∀ a, v = .ref a → w ≠ .ref a) : ∀ n, eval_eq W (n + 1) v w s = some (some (f64eq f g), s) := by
  intro n
  have zero : ∀ {x : Word}, store (.float x) = .flo x → isZeroBits x = false := by
    intro x hx
    cases hz : isZeroBits x with
    | false => rfl
    | true => simp [store, float, hz] at hx
  have differ : ∀ {x y : Word} {u : Word}, store (.float x) = .word u → store (.float y) = .flo y → x ≠ y := by
    rintro x y u hx hy rfl
    rw [hx] at hy
    cases hy
  cases hv with
  | @imm _ v hf hv =>
    obtain ⟨f1, g1⟩ := load_float hf hv
    cases hw with
    | @imm _ w hg hw =>
      obtain ⟨f2, g2⟩ := load_float hg hw
      simp only [eq2_words, f1, g1, g2]
    | @obj a _ hg ha =>
      have h1 := zero hg
      have h2 := differ hv hg
      have h3 : (V.imm v == V.ref a) = false := by rw [beq_eq_false_iff_ne]; simp
      have h0 : eval_eq W (n + 1) (.imm v) (.ref a) s = match Verif.Value.as_fixnum v with
        | some _ => some (some (V.imm v == V.ref a), s)
        | none => match Verif.Value.as_flonum v with
          | some _ => some (some (V.imm v == V.ref a), s)
          | none => some (some (V.imm v == V.ref a), s) := rfl
      simp only [h0, f1, g1, h3]
      simp [f64eq, h2, h1]
  | @obj a _ hf ha =>
    have h1 := zero hf
    cases hw with
    | @imm _ w hg hw =>
      obtain ⟨f2, g2⟩ := load_float hg hw
      have h2 := differ hw hf
      have h3 : (V.ref a == V.imm w) = false := by rw [beq_eq_false_iff_ne]; simp
      have h0 : eval_eq W (n + 1) (.ref a) (.imm w) s = some (some (V.ref a == V.imm w), s) := rfl
      rw [h0, h3]
      simp [f64eq, Ne.symm h2, h1]
    | @obj b _ hg hb =>
      have : a ≠ b := by
        rintro rfl
        exact hne a rfl rfl
      rw [eval_eq, eq2_ref, if_neg this, ha, hb]

/-- **C81** (an integer and a float). They are compared as numbers if both are packed or both are objects. (The other cases:
`C81_big_float_fails`.) -/
theorem C81_int_float_partial {s : σ} {v w : V} {m : Int} {f : Word} (hv : Holds (W.heap s) v (.atom (.int m)))
    (hw : IsFloat (W.heap s) w f) (h : (∃ x y, v = .imm x ∧ w = .imm y) ∨ ∃ a b, v = .ref a ∧ w = .ref b) :
    ∀ n, eval_eq W (n + 1) v w s = some (some (W.intEqF m f), s) ∧ eval_eq W (n + 1) w v s = some (some (W.intEqF m f), s) := by
  intro n
  rcases h with ⟨x, y, rfl, rfl⟩ | ⟨a, b, rfl, rfl⟩
  · cases hv with
    | imm hx h1 =>
      obtain ⟨f1, g1, _⟩ := load_word hx h1
      cases hw with
      | imm hf h2 =>
        obtain ⟨f2, g2⟩ := load_float hf h2
        exact ⟨by simp only [eq2_words, f1, f2, g2], by simp only [eq2_words, f1, f2, g2, g1]⟩
  · cases hv with
    | big h1 ha =>
      cases hw with
      | obj h2 hb =>
        have : a ≠ b := by
          rintro rfl
          rw [ha] at hb
          cases hb
        constructor
        · rw [eval_eq, eq2_ref, if_neg this, ha, hb]
        · rw [eval_eq, eq2_ref, if_neg (Ne.symm this), ha, hb]

/-- **C81** (`==` as a method). `a.send(:==, b)`, or `==` of a receiver that is not known: if `a` is `nil`, `true`, `false`, a
symbol or an integer, the answer is that of `a == b`. (Strings, arrays and ranges: `C81_send_fails`.) -/
theorem C81_send_partial {s : σ} {a b : V} {d : Src} {e : Datum} (hu : Untouched W s) (ha : Holds (W.heap s) a (.atom d))
    (hb : Holds (W.heap s) b e) : ∃ r, W.send a b s = (some r, s) ∧ (truthy r = true ↔ Datum.atom d = e) := by
  obtain ⟨r, h1, h2⟩ := hu a _ b ha
  refine ⟨r, h1, ?_⟩
  rw [h2]
  cases ha with
  | @imm _ w hx h3 =>
    obtain ⟨f1, g1, k1⟩ := load_word hx h3
    cases hb with
    | @imm t w' ht h4 =>
      obtain ⟨f2, g2, k2⟩ := load_word ht h4
      have hww : w = w' ↔ d = t := by
        constructor
        · rintro rfl
          exact word_inj hx ht h3 h4
        · rintro rfl
          rw [h3] at h4
          cases h4
          rfl
      have : builtin_eq W (.imm w) (.imm w') s = decide (w = w') := by
        cases d with
        | sym x =>
          simp only [builtin_eq, k1, k2]
          cases t <;> simp_all
          rename_i y
          rw [beq_eq_decide]
          exact decide_eq_decide.2 eq_comm
        | _ => simp only [builtin_eq, k1, beq_eq_decide, V.imm.injEq]
      simp [this, hww]
    | _ =>
      cases d <;> simp [builtin_eq, k1]
      all_goals
        intro h
        subst h
        simp_all
  | @big p n h3 h4 =>
    cases hb with
    | @imm t w' ht h5 =>
      obtain ⟨f2, g2, k2⟩ := load_word ht h5
      have : Src.int n ≠ t := by
        rintro rfl
        rw [h3] at h5
        cases h5
      simp only [builtin_eq, h4, f2, g2]
      cases t <;> simp_all
    | big h5 h6 => simp [builtin_eq, h4, h6]
    | str h5 => simp [builtin_eq, h4, h5]
    | arr h5 => simp [builtin_eq, h4, h5]
    | rng h5 => simp [builtin_eq, h4, h5]

/-! ## Instances -/

/-- `1.0 == 1`, `1.0 != 2`. -/
example : IsFloat toyHeap (.imm (floatW 0x3ff0000000000000#64)) 0x3ff0000000000000#64 ∧
    eval_eqi toy (.imm (floatW 0x3ff0000000000000#64)) 1 () = (some true, ()) ∧
    eval_nei toy (.imm (floatW 0x3ff0000000000000#64)) 2 () = (some true, ()) := by
  have h : IsFloat toyHeap (.imm (floatW 0x3ff0000000000000#64)) 0x3ff0000000000000#64 :=
    .imm ⟨by decide, by decide⟩ (by decide +kernel)
  refine ⟨h, ?_, ?_⟩
  · rw [(C81_float_literal_partial toy (s := ()) h 1).1]
    decide +kernel
  · rw [(C81_float_literal_partial toy (s := ()) h 2).2]
    decide +kernel

/-- `1.0 == 1e300` -/
example : IsFloat (fun _ => .flo 0x7e37e43c8800759c#64) (.ref 0) 0x7e37e43c8800759c#64 :=
  .obj (by decide +kernel) rfl

/-- `:a.send(:==, :b)` -/
example : ∃ r, toy.send (.imm (symbolW 7#32)) (.imm (symbolW 8#32)) () = (some r, ()) ∧ truthy r = false := by
  obtain ⟨r, h1, h2⟩ := C81_send_partial toy (s := ()) (a := .imm (symbolW 7#32)) (b := .imm (symbolW 8#32)) (d := .sym 7#32)
    (e := .atom (.sym 8#32)) toy_untouched (.imm (by simp) (by decide +kernel)) (.imm (by simp) (by decide +kernel))
  refine ⟨r, h1, ?_⟩
  cases h : truthy r
  · rfl
  · exact absurd (h2.1 h) (by simp)

end Verif.Eq
