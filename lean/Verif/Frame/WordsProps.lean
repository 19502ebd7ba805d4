import Verif.Frame.Words

/-!
# Words in a frame: theorems
-/
namespace Verif.Frame
open Verif.Value

/-! ## C55 -/

/-- the information kept in a flag word -/
structure Flags where
  len : Nat
  ruby : Bool
  discard : Bool
  moduleFunction : Bool
deriving DecidableEq, Repr

/-- how a flag word comes about and what happens to it -/
inductive Create where
  | ruby (useValue : Bool) (len : Nat)
  | native (len : Nat)

inductive Update where
  | setModuleFunction
  | setLen (len : Nat)

/-- what the word should say -/
def Create.flags : Create → Flags
  | .ruby u n => ⟨n, true, !u, false⟩
  | .native n => ⟨n, false, false, false⟩

def Update.apply (f : Flags) : Update → Flags
  | .setModuleFunction => { f with moduleFunction := true }
  | .setLen n => { f with len := n }

/-- the word -/
def Create.word : Create → Word
  | .ruby u n => ruby_flag u (BitVec.ofNat 64 n)
  | .native n => native_flag (BitVec.ofNat 64 n)

def Update.word (w : Word) : Update → Word
  | .setModuleFunction => set_module_function w
  | .setLen n => set_local_len w (BitVec.ofNat 64 n)

/-- all lengths fit in 32 bits -/
def Create.fits : Create → Prop
  | .ruby _ n => n < 2 ^ 32
  | .native n => n < 2 ^ 32

def Update.fits : Update → Prop
  | .setModuleFunction => True
  | .setLen n => n < 2 ^ 32

/-- everything read from a word -/
def readFlags (w : Word) : Flags :=
  ⟨(flag_len w).toNat, is_ruby_func w, discard_val w, is_module_function w⟩

theorem bit_test (w : Word) (k : Nat) (hk : k < 64) (m : Word)
    (hm : ∀ j, m.getLsbD j = decide (j = k)) : (w &&& m != 0#64) = w.getLsbD k := by
  rw [Bool.eq_iff_iff, bne_iff_ne]
  constructor
  · intro h
    by_contra hc
    apply h
    apply BitVec.eq_of_getLsbD_eq
    intro j hj
    rw [BitVec.getLsbD_and, hm]
    by_cases hjk : j = k
    · subst hjk; simp [hc]
    · simp [hjk]
  · intro h h'
    have := congrArg (·.getLsbD k) h'
    simp [BitVec.getLsbD_and, hm, h] at this

theorem lit_bit {n : Nat} {k : Nat} (hn : n = 2 ^ k) (hk : k < 64) :
    ∀ j, (BitVec.ofNat 64 n).getLsbD j = decide (j = k) := by
  intro j
  rw [BitVec.getLsbD_ofNat, hn, Nat.testBit_two_pow]
  by_cases h : j = k
  · subst h; simp [hk]
  · have : k ≠ j := fun e => h e.symm
    simp [h, this]

theorem discard_bits (j : Nat) : FLG_DISCARD.getLsbD j = decide (j = 2) :=
  lit_bit (by rfl) (by omega) j
theorem modfunc_bits (j : Nat) : FLG_MOD_FUNC.getLsbD j = decide (j = 3) :=
  lit_bit (by rfl) (by omega) j
theorem ruby_bits (j : Nat) : FLG_IS_RUBY.getLsbD j = decide (j = 7) :=
  lit_bit (by rfl) (by omega) j
theorem one_bits (j : Nat) : (1#64).getLsbD j = decide (j = 0) :=
  lit_bit (by rfl) (by omega) j
theorem low_bits (j : Nat) : (0xffffffff#64).getLsbD j = decide (j < 32) := by
  rw [BitVec.getLsbD_ofNat]
  have : (0xffffffff : Nat) = 2 ^ 32 - 1 := by norm_num
  rw [this, Nat.testBit_two_pow_sub_one]
  by_cases h : j < 32
  · simp [h]; omega
  · simp [h]

/-- `w` represents `f` -/
structure Represents (w : Word) (f : Flags) : Prop where
  len : ∀ j, w.getLsbD (32 + j) = (decide (j < 32) && f.len.testBit j)
  lenFits : f.len < 2 ^ 32
  ruby : w.getLsbD 7 = f.ruby
  discard : w.getLsbD 2 = f.discard
  modfunc : w.getLsbD 3 = f.moduleFunction
  odd : w.getLsbD 0 = true

theorem testBit_high {n j : Nat} (h : n < 2 ^ 32) (hj : 32 ≤ j) : n.testBit j = false := by
  apply Nat.testBit_lt_two_pow
  exact Nat.lt_of_lt_of_le h (Nat.pow_le_pow_right (by decide) hj)

theorem Represents.read {w : Word} {f : Flags} (h : Represents w f) : readFlags w = f := by
  have e : (flag_len w).toNat = f.len := by
    apply Nat.eq_of_testBit_eq
    intro j
    have := h.len j
    show (w >>> 32).getLsbD j = _
    rw [BitVec.getLsbD_ushiftRight, this]
    by_cases hj : j < 32
    · simp [hj]
    · simp [hj, testBit_high h.lenFits (Nat.le_of_not_lt hj)]
  unfold readFlags is_ruby_func discard_val is_module_function
  rw [e, bit_test w 7 (by omega) _ ruby_bits, bit_test w 2 (by omega) _ discard_bits,
    bit_test w 3 (by omega) _ modfunc_bits, h.ruby, h.discard, h.modfunc]

theorem shl_bits (n j : Nat) :
    ((BitVec.ofNat 64 n) <<< 32).getLsbD j = (decide (32 ≤ j) && decide (j < 64) && n.testBit (j - 32)) := by
  rw [BitVec.getLsbD_shiftLeft, BitVec.getLsbD_ofNat]
  by_cases h1 : j < 32
  · simp [h1, Nat.not_le.mpr h1]
  · by_cases h2 : j < 64
    · have h3 : j - 32 < 64 := by omega
      have h4 : 32 ≤ j := by omega
      simp [h1, h2, h3, h4]
    · simp [h2]

theorem Create.represents (c : Create) (h : c.fits) : Represents c.word c.flags := by
  cases c with
  | ruby u n =>
    have hu : ∀ j, (if u = true then 0#64 else FLG_DISCARD).getLsbD j = (decide (j = 2) && !u) := by
      intro j; cases u <;> simp [discard_bits]
    constructor <;>
      simp only [Create.word, Create.flags, ruby_flag, BitVec.getLsbD_or, shl_bits, one_bits,
        ruby_bits, hu]
    · intro j
      have e1 : decide (32 + j = 0) = false := by simp
      have e2 : decide (32 + j = 7) = false := by simp; omega
      have e3 : decide (32 + j = 2) = false := by simp; omega
      rw [e1, e2, e3]
      by_cases hj : j < 32
      · have : 32 + j < 64 := by omega
        simp [hj, this]
      · have : ¬ 32 + j < 64 := by omega
        simp [hj, this]
    · exact h
    · simp
    · simp
    · simp
    · simp
  | native n =>
    constructor <;>
      simp only [Create.word, Create.flags, native_flag, BitVec.getLsbD_or, shl_bits, one_bits]
    · intro j
      have e1 : decide (32 + j = 0) = false := by simp
      rw [e1]
      by_cases hj : j < 32
      · have : 32 + j < 64 := by omega
        simp [hj, this]
      · have : ¬ 32 + j < 64 := by omega
        simp [hj, this]
    · exact h
    · simp
    · simp
    · simp
    · simp

theorem Update.represents (u : Update) (hu : u.fits) {w : Word} {f : Flags} (h : Represents w f) :
    Represents (u.word w) (u.apply f) := by
  cases u with
  | setModuleFunction =>
    constructor <;>
      simp only [Update.word, Update.apply, set_module_function, BitVec.getLsbD_or, modfunc_bits]
    · intro j
      have e1 : decide (32 + j = 3) = false := by simp; omega
      rw [e1, h.len]; simp
    · exact h.lenFits
    · simpa using h.ruby
    · simpa using h.discard
    · simp
    · simpa using h.odd
  | setLen n =>
    constructor <;>
      simp only [Update.word, Update.apply, set_local_len, BitVec.getLsbD_or, BitVec.getLsbD_and,
        low_bits, shl_bits]
    · intro j
      have e1 : decide (32 + j < 32) = false := by simp
      rw [e1]
      by_cases hj : j < 32
      · have : 32 + j < 64 := by omega
        simp [hj, this]
      · have : ¬ 32 + j < 64 := by omega
        simp [hj, this]
    · exact hu
    · simpa using h.ruby
    · simpa using h.discard
    · simpa using h.modfunc
    · simpa using h.odd

/-- **C55.**  Whatever a frame's flag word is created with, and whichever flags and lengths are set
afterwards, in any order and any number, every field reads back as last written, and the word is never
mistaken for a reference to an object (its lowest bit is set). -/
theorem C55_flags (c : Create) (hc : c.fits) (us : List Update) (hu : ∀ u ∈ us, u.fits) :
    readFlags (us.foldl Update.word c.word) = us.foldl Update.apply c.flags ∧
      is_fnum (us.foldl Update.word c.word) = true := by
  have : ∀ (us : List Update) (w : Word) (f : Flags), (∀ u ∈ us, u.fits) → Represents w f →
      Represents (us.foldl Update.word w) (us.foldl Update.apply f) := by
    intro us
    induction us with
    | nil => intro w f _ h; exact h
    | cons u us ih =>
      intro w f hf h
      exact ih _ _ (fun v hv => hf v (by simp [hv])) (u.represents (hf u (by simp)) h)
  have := this us _ _ hu (c.represents hc)
  exact ⟨this.read, by unfold is_fnum; rw [and_one_eq_one]; exact this.odd⟩

example : readFlags ([Update.setModuleFunction, .setLen 77].foldl Update.word
      (Create.ruby false 4000000000).word) = ⟨77, true, true, true⟩ := by
  rw [(C55_flags (.ruby false 4000000000) (by simp [Create.fits]) _
    (by intro u hu; simp at hu; rcases hu with rfl | rfl <;> simp [Update.fits])).1]
  rfl

/-! ## C54 -/

theorem fixnum_tag (w : Word) : is_fnum (fixnumW w) = true := by
  unfold is_fnum
  rw [and_one_eq_one]; exact fixnumW_bit0 w

theorem decode_fixnum {i : Int} (h : InI63 i) : as_fixnum (fixnumW (BitVec.ofInt 64 i)) = some i := by
  unfold as_fixnum
  rw [fixnum_tag, if_pos rfl, as_fnum_fixnumW i h]

/-- A reference to an object: a word that is not a packed value. -/
def IsObject (w : Word) : Prop := w.toNat % 8 = 0

/-- **C54.**  A block (code id and frame), a symbol or a Proc object stored in the block slot of a frame
is read back as it was stored, and so is "no block".

`_partial`: code ids from 2^30 on are excluded, see `C54_handle_fails`. -/
theorem C54_handle_partial :
    decode (encode none) = .none ∧
    (∀ m f : BitVec 32, m ≠ 0#32 → m.toNat < 2 ^ 30 →
      decode (encode (some (.block m f))) = .some (.block m f)) ∧
    (∀ id, decode (encode (some (.sym id))) = .some (.sym id)) ∧
    (∀ p, IsObject p → decode (encode (some (.proc p))) = .some (.proc p)) := by
  refine ⟨by decide, ?_, ?_, ?_⟩
  · intro m f hm hlt
    have hm1 : 0 < m.toNat := by
      rcases Nat.eq_zero_or_pos m.toNat with h | h
      · exact absurd (BitVec.eq_of_toNat_eq (by simpa using h)) hm
      · exact h
    have hf := f.isLt
    have hw : (m.setWidth 64 <<< 32) + f.setWidth 64 =
        BitVec.ofInt 64 ((m.toNat * 2 ^ 32 + f.toNat : Nat) : Int) := by
      apply BitVec.eq_of_toNat_eq
      rw [BitVec.toNat_add, BitVec.toNat_shiftLeft, BitVec.toNat_setWidth, BitVec.toNat_setWidth,
        Nat.shiftLeft_eq, BitVec.ofInt_natCast, BitVec.toNat_ofNat]
      omega
    have h63 : InI63 ((m.toNat * 2 ^ 32 + f.toNat : Nat) : Int) := by
      unfold InI63; omega
    unfold decode
    have he : encode (some (.block m f)) = fixnumW ((m.setWidth 64 <<< 32) + f.setWidth 64) := rfl
    rw [he, hw, decode_fixnum h63]
    have hne : ((m.toNat * 2 ^ 32 + f.toNat : Nat) : Int) ≠ 0 := by omega
    have e1 : (BitVec.ofInt 64 ((m.toNat * 2 ^ 32 + f.toNat : Nat) : Int) >>> 32).setWidth 32 = m := by
      apply BitVec.eq_of_toNat_eq
      rw [BitVec.toNat_setWidth, BitVec.toNat_ushiftRight, BitVec.ofInt_natCast, BitVec.toNat_ofNat,
        Nat.shiftRight_eq_div_pow]
      omega
    have e2 : (BitVec.ofInt 64 ((m.toNat * 2 ^ 32 + f.toNat : Nat) : Int)).setWidth 32 = f := by
      apply BitVec.eq_of_toNat_eq
      rw [BitVec.toNat_setWidth, BitVec.ofInt_natCast, BitVec.toNat_ofNat]
      omega
    simp only [hne, if_false, e1, e2, hm]
  · intro id
    have h0 : (symbolW id).getLsbD 0 = false := by rw [symbolW_low id 0 (by decide)]; rfl
    have hf : is_fnum (symbolW id) = false := by
      unfold is_fnum; rw [and_one_eq_one]; exact h0
    have hs : is_packed_symbol (symbolW id) = true := by
      rw [is_packed_symbol_iff, symbolW_toNat]; omega
    simp [decode, encode, as_fixnum, hf, as_symbol, hs, as_packed_symbol_symbolW]
  · intro p hp
    unfold IsObject at hp
    have hf : is_fnum p = false := by
      unfold is_fnum; rw [and_one_eq_one, getLsbD_eq_toNat]
      simp; omega
    have hs : is_packed_symbol p = false := by
      cases h : is_packed_symbol p
      · rfl
      · rw [is_packed_symbol_iff] at h; omega
    simp [decode, encode, as_fixnum, hf, as_symbol, hs]

example : decode (encode (some (.block 17#32 8191#32))) = .some (.block 17#32 8191#32) ∧
    IsObject 0x7f00aabbcc00#64 := ⟨by decide, by unfold IsObject; decide⟩

/-- **C54 fails** for code ids from 2^30 on, which do not fit in the 63 bits of a packed integer: the
block is read back as another block, or as no block. -/
theorem C54_handle_fails :
    decode (encode (some (.block 0x40000000#32 5#32))) = .some (.block 0xc0000000#32 5#32) ∧
    decode (encode (some (.block 0x80000000#32 0#32))) = .none := by decide

/-- Pointers to frames: an aligned address is read back, and so is the null pointer. -/
theorem C54_pointer (p : Word) (h : p.toNat % 8 = 0) :
    dec (enc p) = if p = 0#64 then none else some p := by
  have : enc p &&& ~~~ 1#64 = p := by
    apply BitVec.eq_of_getLsbD_eq
    intro j hj
    rw [enc, BitVec.getLsbD_and, BitVec.getLsbD_or, BitVec.getLsbD_not, one_bits]
    by_cases h0 : j = 0
    · subst h0
      rw [getLsbD_eq_toNat]
      simp; omega
    · simp [h0, hj]
  simp only [dec, this]

/-- Code references: an aligned address is read back. -/
theorem C54_code (p : Word) (h : p.toNat % 8 = 0) : dec_iseq (enc_iseq p) = p := by
  have hi : (p.sshiftRight 3) = BitVec.ofInt 64 (p.sshiftRight 3).toInt :=
    (BitVec.ofInt_toInt).symm
  have hv : (p.sshiftRight 3).toInt = p.toInt / 8 := by
    rw [BitVec.toInt_sshiftRight, Int.shiftRight_eq_div_pow]; rfl
  have h1 := BitVec.toInt_lt (x := p)
  have h2 := BitVec.le_toInt (x := p)
  have h63 : InI63 (p.sshiftRight 3).toInt := by
    rw [hv]; unfold InI63; omega
  unfold dec_iseq enc_iseq
  rw [hi, as_fnum_fixnumW _ h63, hv]
  apply BitVec.eq_of_toInt_eq
  rw [BitVec.toInt_shiftLeft, BitVec.toNat_ofInt, Nat.shiftLeft_eq]
  have hp : p.toInt % 8 = 0 := by
    rw [BitVec.toInt_eq_toNat_cond]; split <;> omega
  have e : ((((p.toInt / 8) % ((2 ^ 64 : Nat) : Int)).toNat * 2 ^ 3 : Nat) : Int) =
      ((p.toInt / 8) % ((2 ^ 64 : Nat) : Int)) * 8 := by
    push_cast
    rw [Int.toNat_of_nonneg (by omega)]
  rw [e, Int.bmod_def]
  split <;> omega

example : dec (enc 0x7f00aabbcc08#64) = some 0x7f00aabbcc08#64 ∧
    dec_iseq (enc_iseq 0xffff800012345678#64) = 0xffff800012345678#64 := by decide

end Verif.Frame
