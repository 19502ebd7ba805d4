import Verif.Value.Lemmas
import Verif.Value.Spec
/-! # C01–C03: immediates -/
namespace Verif.Value

/-- C01 (integers of any size): what is stored is what is read, and the small representation is used exactly on
the 63-bit range. -/
theorem C01_integer_roundtrip (n : Int) :
    load (store (.int n)) = some (.int n) ∧
    ((∃ w, store (.int n) = .word w) ↔ (-2^62 ≤ n ∧ n < 2^62)) := by
  refine ⟨?_, ?_⟩
  · show load (bignum n) = _
    unfold load
    rw [unpack_bignum]
    by_cases h : InI63 n
    · rw [if_pos h]
    · rw [if_neg h]
  · show (∃ w, bignum n = _) ↔ InI63 n
    unfold bignum
    by_cases h : InI64 n
    · rw [if_pos h]; unfold integer
      by_cases h3 : InI63 n
      · rw [if_pos ((is_i63_iff n h).2 h3)]; simp [h3]
      · rw [if_neg (fun hh => h3 ((is_i63_iff n h).1 hh))]; simp [h3]
    · have : ¬ InI63 n := by unfold InI63 InI64 at *; omega
      rw [if_neg h]; simp [this]

/-- C01 (symbols). -/
theorem C01_symbol_roundtrip (id : BitVec 32) : load (store (.sym id)) = some (.sym id) := by
  simp [load, store, unpack_symbol]

/-- C01 (constants). -/
theorem C01_constants_roundtrip :
    load (store .nil) = some .nil ∧ load (store .tru) = some .tru ∧ load (store .fls) = some .fls := by
  decide

/-- C01 (floats): every bit pattern except two survives. -/
theorem C01_float_roundtrip_partial (b : Word) (h1 : b ≠ negZero) (h2 : b ≠ tinyFloat) :
    load (store (.float b)) = some (.float b) := by
  simp [load, store, unpack_float b h1 h2]

example : (0x3ff8000000000000#64 : Word) ≠ negZero ∧ (0x3ff8000000000000#64 : Word) ≠ tinyFloat ∧
    load (store (.float 0x3ff8000000000000#64)) = some (.float 0x3ff8000000000000#64) := by decide

/-- C01 fails in the code for `-0.0` (stored as `0.0`) and for `2^-255` (its packed word is the one
reserved for `0.0`). -/
theorem C01_float_roundtrip_fails :
    load (store (.float negZero)) = some (.float 0#64) ∧
    load (store (.float tinyFloat)) = some (.float 0#64) ∧
    ¬ (∀ b, load (store (.float b)) = some (.float b)) := by
  refine ⟨by decide, by decide, fun h => ?_⟩
  have := h tinyFloat
  revert this; decide

/-- C01, all kinds at once, outside the two patterns. -/
theorem C01_roundtrip_partial (s : Src) (h : s.floatOK) : load (store s) = some s := by
  cases s with
  | int n => exact (C01_integer_roundtrip n).1
  | float b => exact C01_float_roundtrip_partial b h.1 h.2
  | sym id => exact C01_symbol_roundtrip id
  | nil => exact C01_constants_roundtrip.1
  | tru => exact C01_constants_roundtrip.2.1
  | fls => exact C01_constants_roundtrip.2.2

/-- C02: two values with the same representation are the same value (kinds and payloads). -/
theorem C02_no_alias_partial (s t : Src) (hs : s.floatOK) (ht : t.floatOK)
    (h : store s = store t) : s = t := by
  have h1 := C01_roundtrip_partial s hs
  have h2 := C01_roundtrip_partial t ht
  rw [h, h2] at h1
  exact (Option.some.inj h1).symm

example : Src.floatOK (.int 5) ∧ Src.floatOK (.float 0x4014000000000000#64) := by
  simp only [Src.floatOK]; decide

/-- C02 without the side condition fails: `0.0` and `2^-255` are one word. -/
theorem C02_no_alias_fails : store (.float tinyFloat) = store (.float 0#64) ∧
    (Src.float tinyFloat) ≠ .float 0#64 := by decide

/-- C02: floats never alias another kind, whatever their pattern. -/
theorem C02_kinds_disjoint (b : Word) (s : Src) (hs : ∀ c, s ≠ .float c) :
    store s ≠ store (.float b) := by
  intro h
  have hf : s.floatOK := by cases s <;> simp_all [Src.floatOK]
  have h1 := C01_roundtrip_partial s hf
  by_cases h2 : b = negZero
  · subst h2; rw [h, C01_float_roundtrip_fails.1] at h1; exact hs _ (Option.some.inj h1).symm
  by_cases h3 : b = tinyFloat
  · subst h3; rw [h, C01_float_roundtrip_fails.2.1] at h1; exact hs _ (Option.some.inj h1).symm
  rw [h, C01_float_roundtrip_partial b h2 h3] at h1
  exact hs _ (Option.some.inj h1).symm

theorem is_packed_value_iff (w : Word) : is_packed_value w = true ↔ w.toNat % 8 ≠ 0 := by
  unfold is_packed_value
  rw [bne_iff_ne, not_iff_not]
  have : (w &&& 0b0111#64).toNat = w.toNat % 8 := by
    rw [BitVec.toNat_and]; exact Nat.and_two_pow_sub_one_eq_mod w.toNat 3
  constructor
  · intro h; rw [← this, h]; rfl
  · intro h; apply BitVec.eq_of_toNat_eq; rw [this, h]; rfl

/-- C02: the word of an immediate is never the address of a heap object, and `is_packed_value` tells them apart. -/
theorem C02_immediate_not_address (s : Src) (w : Word) (h : store s = .word w) :
    ¬ IsAddress w ∧ is_packed_value w = true ∧ ∀ a, IsAddress a → is_packed_value a = false := by
  have hp : is_packed_value w = true := by
    have key : unpack (store s) ≠ .illegal := by
      cases s with
      | int n => show unpack (bignum n) ≠ _; rw [unpack_bignum]; split <;> simp
      | float b =>
        show unpack (float b) ≠ _
        by_cases h2 : b = negZero
        · subst h2; decide
        by_cases h3 : b = tinyFloat
        · subst h3; decide
        rw [unpack_float b h2 h3]; simp
      | sym id => show unpack (symbol id) ≠ _; rw [unpack_symbol]; simp
      | nil => decide
      | tru => decide
      | fls => decide
    rw [h] at key
    by_contra hc
    apply key
    simp [unpack, hc]
  refine ⟨fun ha => ?_, hp, fun a ha => ?_⟩
  · exact (is_packed_value_iff w).1 hp ha.1
  · cases hv : is_packed_value a
    · rfl
    · exact absurd ha.1 ((is_packed_value_iff a).1 hv)

example : store (.sym 7#32) = .word 0x70000000c#64 ∧ IsAddress 0x7f0000001040#64 := by
  refine ⟨by decide, by decide, by decide⟩

/-- C03: among the immediates exactly `nil` and `false` are falsy (in particular `0` and `0.0` are true). -/
theorem C03_truthiness (s : Src) (w : Word) (h : store s = .word w) :
    to_bool w = false ↔ (s = .nil ∨ s = .fls) := by
  constructor
  · intro hb
    have hz : ∀ b, s = .float b → False := by
      intro b hs; subst hs
      have hk := fun t ht => C02_kinds_disjoint b t ht
      rcases (to_bool_false_iff w).1 hb with e | e | e | e
      · have hw : unpack (store (.float b)) = .uninit := by rw [h, e]; decide
        by_cases h2 : b = negZero
        · subst h2; revert hw; decide
        by_cases h3 : b = tinyFloat
        · subst h3; revert hw; decide
        rw [show store (.float b) = float b from rfl, unpack_float b h2 h3] at hw; simp at hw
      · exact hk .fls (by simp) (by rw [h, e]; decide)
      · exact hk .nil (by simp) (by rw [h, e]; decide)
      · have hw : unpack (store (.float b)) = .illegal := by rw [h, e]; decide
        by_cases h2 : b = negZero
        · subst h2; revert hw; decide
        by_cases h3 : b = tinyFloat
        · subst h3; revert hw; decide
        rw [show store (.float b) = float b from rfl, unpack_float b h2 h3] at hw; simp at hw
    have hf : s.floatOK := by cases s <;> simp_all [Src.floatOK]
    have h1 := C01_roundtrip_partial s hf
    rw [h] at h1
    rcases (to_bool_false_iff w).1 hb with e | e | e | e <;> subst e
    · revert h1; simp [load, show unpack (.word 0x04#64) = .uninit by decide]
    · rw [show load (.word 0x14#64) = some .fls by decide] at h1; right; exact (Option.some.inj h1).symm
    · rw [show load (.word 0x24#64) = some .nil by decide] at h1; left; exact (Option.some.inj h1).symm
    · revert h1; simp [load, show unpack (.word 0x34#64) = .illegal by decide]
  · rintro (h' | h') <;> subst h'
    · have : w = NIL_VALUE := by simpa [store, Value.nil] using h.symm
      subst this; decide
    · have : w = FALSE_VALUE := by simpa [store, false_val] using h.symm
      subst this; decide

example : store (.int 0) = .word 1#64 ∧ to_bool 1#64 = true := by decide

/-- C03: every reference to a heap object is true. -/
theorem C03_objects_true (w : Word) (h : IsAddress w) : to_bool w = true := by
  cases hb : to_bool w
  · rcases (to_bool_false_iff w).1 hb with e | e | e | e <;> subst e <;> exact absurd h.1 (by decide)
  · rfl

example : IsAddress 0x7f0000001040#64 := by refine ⟨by decide, by decide⟩

end Verif.Value
