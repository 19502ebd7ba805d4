import Verif.Heap.Control
import Verif.Value.Props
/-!
# Addresses of objects, and `object_id`

`Verif/Heap/Model` names a cell by its page and its index.  Here are the addresses: how a page finds its cells
(`get_data_ptr`), how the collector finds the page, the index and the mark bit of an object from its address (`from_inner`,
`gc_check_and_mark`), and what `object_id` and `equal?` make of addresses.
-/
namespace Verif.Heap
namespace Address

open Verif.Value (Word Src Val store load IsAddress)

/-! ## Model -/

/-- `GCBOX_SIZE`, alloc.rs:30, asserted in alloc.rs:85 -/
def GCBOX_SIZE : Nat := 64
/-- `ALLOC_SIZE`, alloc.rs:31-34: `PAGE_LEN * GCBOX_SIZE` -/
def ALLOC_SIZE : Nat := 64 * 64 * GCBOX_SIZE

/-- Where the parts of a page are (`struct Page`, alloc.rs:416-419): the compiler chooses the order of the fields, both are
inside the page (alloc.rs:86) and apart, and aligned as their types are. -/
structure Layout where
  data : Nat
  marks : Nat
  dataIn : data + DATA_LEN * GCBOX_SIZE ≤ ALLOC_SIZE
  marksIn : marks + 63 * 8 ≤ ALLOC_SIZE
  apart : data + DATA_LEN * GCBOX_SIZE ≤ marks ∨ marks + 63 * 8 ≤ data
  dataAligned : data % 8 = 0

/-- The `n` pages the system has given (`alloc_page`, alloc.rs:455-463): aligned by their size, different, not null. -/
structure Pages where
  n : Nat
  base : Nat → Word
  aligned : ∀ p, p < n → (base p).toNat % ALLOC_SIZE = 0
  different : ∀ p q, p < n → q < n → base p = base q → p = q
  notNull : ∀ p, p < n → base p ≠ 0#64

/-- A cell of one of these pages. -/
def Pages.Has (P : Pages) (c : Cell) : Prop := c.page < P.n ∧ c.idx < DATA_LEN

/-- `get_data_ptr`, alloc.rs:496-498, on the address of a page -/
def get_data_ptr (L : Layout) (page : Word) (index : Nat) : Word := page + BitVec.ofNat 64 (L.data + index * GCBOX_SIZE)

/-- `from_inner`, alloc.rs:489-491: `ptr & !(ALLOC_SIZE - 1)` -/
def from_inner (ptr : Word) : Word := ptr &&& ~~~(BitVec.ofNat 64 (ALLOC_SIZE - 1))

/-- The index in `gc_check_and_mark` (alloc.rs:256): `offset_from` counts in objects. -/
def index_of (L : Layout) (ptr : Word) : Nat := (ptr - get_data_ptr L (from_inner ptr) 0).toNat / GCBOX_SIZE

/-- The word of the bitmap and the bit in it (alloc.rs:257-259) -/
def bit_of (L : Layout) (ptr : Word) : Nat × Nat := (index_of L ptr / 64, index_of L ptr % 64)

/-- The address of that word (`mark_bits_mut`, alloc.rs:448-450) -/
def mark_word (L : Layout) (ptr : Word) : Word := from_inner ptr + BitVec.ofNat 64 (L.marks + (bit_of L ptr).1 * 8)

/-- The address of a cell. -/
def addr (L : Layout) (P : Pages) (c : Cell) : Word := get_data_ptr L (P.base c.page) c.idx

/-- `Object#object_id` (builtin/object.rs:48-51) and `__id__` (builtin/basicobject.rs:65-69): the word as an `i64`. -/
def object_id (w : Word) : Val := Verif.Value.integer w.toInt

/-- `Object#equal?` (builtin/object.rs:178-181) -/
def equal (v w : Word) : Bool := v == w

/-! ## Specification -/

/-- A value that is one word: an immediate, or an object in a cell. -/
inductive Thing where
  | imm (s : Src)
  | object (c : Cell)

/-- The word of a value. -/
def IsWord (L : Layout) (P : Pages) : Thing → Word → Prop
  | .imm s, w => store s = .word w
  | .object c, w => P.Has c ∧ w = addr L P c

/-- Not one of the two floats of C01 and C02. -/
def Thing.fine : Thing → Prop
  | .imm s => s.floatOK
  | .object _ => True

/-- The bytes of a cell. -/
def bytes (w : Word) (n : Nat) (b : Nat) : Prop := w.toNat ≤ b ∧ b < w.toNat + n

/-! ## Helpers -/

theorem alloc_size : ALLOC_SIZE = 262144 := rfl

theorem base_room (P : Pages) (p : Nat) (hp : p < P.n) : (P.base p).toNat + ALLOC_SIZE ≤ 2 ^ 64 := by
  have h1 := P.aligned p hp
  have h2 := (P.base p).isLt
  rw [alloc_size] at h1 ⊢
  omega

theorem data_toNat (L : Layout) (P : Pages) (p i : Nat) (hp : p < P.n) (hi : i < DATA_LEN) :
    (get_data_ptr L (P.base p) i).toNat = (P.base p).toNat + (L.data + i * 64) := by
  have h := base_room P p hp
  have h2 := L.dataIn
  have hd : DATA_LEN = 4032 := rfl
  rw [alloc_size] at h h2
  unfold get_data_ptr
  simp only [GCBOX_SIZE] at h2 ⊢
  rw [BitVec.toNat_add, BitVec.toNat_ofNat]
  omega

theorem from_inner_shift (w : Word) : from_inner w = (w >>> 18) <<< 18 := by
  unfold from_inner
  have e1 : ALLOC_SIZE - 1 = 2 ^ 18 - 1 := rfl
  rw [e1]
  apply BitVec.eq_of_getLsbD_eq
  intro i hi
  rw [BitVec.getLsbD_and, BitVec.getLsbD_not, Verif.Value.getLsbD_lit_aux, Nat.testBit_two_pow_sub_one, BitVec.getLsbD_shiftLeft,
    BitVec.getLsbD_ushiftRight]
  by_cases h : i < 18
  · simp [h, hi]
  · have : 18 + (i - 18) = i := by omega
    simp [h, hi, this]

theorem from_inner_toNat (w : Word) : (from_inner w).toNat = w.toNat / ALLOC_SIZE * ALLOC_SIZE := by
  rw [from_inner_shift, alloc_size, BitVec.toNat_shiftLeft, BitVec.toNat_ushiftRight, Nat.shiftRight_eq_div_pow, Nat.shiftLeft_eq]
  have := w.isLt
  have e : (2 : Nat) ^ 18 = 262144 := rfl
  rw [e]
  omega

theorem from_inner_data (L : Layout) (P : Pages) (p i : Nat) (hp : p < P.n) (hi : i < DATA_LEN) : from_inner (get_data_ptr L (P.base p) i) = P.base p := by
  apply BitVec.eq_of_toNat_eq
  rw [from_inner_toNat, data_toNat L P p i hp hi]
  have h1 := P.aligned p hp
  have h2 := L.dataIn
  have hd : DATA_LEN = 4032 := rfl
  simp only [alloc_size, GCBOX_SIZE] at h1 h2 ⊢
  omega

theorem index_of_data (L : Layout) (P : Pages) (p i : Nat) (hp : p < P.n) (hi : i < DATA_LEN) : index_of L (get_data_ptr L (P.base p) i) = i := by
  unfold index_of
  rw [from_inner_data L P p i hp hi]
  have h0 := data_toNat L P p 0 hp (by decide)
  have h1 := data_toNat L P p i hp hi
  have h2 := (get_data_ptr L (P.base p) i).isLt
  rw [BitVec.toNat_sub, h0, h1]
  simp only [GCBOX_SIZE]
  omega

theorem addr_isAddress (L : Layout) (P : Pages) (c : Cell) (h : P.Has c) : IsAddress (addr L P c) := by
  have h1 := data_toNat L P c.page c.idx h.1 h.2
  have h2 := P.aligned c.page h.1
  have h3 := L.dataAligned
  have h4 : (P.base c.page).toNat ≠ 0 := fun k => P.notNull c.page h.1 (BitVec.eq_of_toNat_eq (by simpa using k))
  rw [alloc_size] at h2
  constructor
  · unfold addr
    rw [h1]
    omega
  · intro k
    unfold addr at k
    rw [k] at h1
    simp at h1
    omega

theorem addr_inj (L : Layout) (P : Pages) {c d : Cell} (hc : P.Has c) (hd : P.Has d) (h : addr L P c = addr L P d) : c = d := by
  have h1 : P.base c.page = P.base d.page := by
    rw [← from_inner_data L P c.page c.idx hc.1 hc.2, ← from_inner_data L P d.page d.idx hd.1 hd.2]
    exact congrArg from_inner h
  have h2 := P.different _ _ hc.1 hd.1 h1
  have h3 : c.idx = d.idx := by
    rw [← index_of_data L P c.page c.idx hc.1 hc.2, ← index_of_data L P d.page d.idx hd.1 hd.2]
    exact congrArg (index_of L) h
  cases c; cases d
  simp_all

theorem load_id (w : Word) : load (object_id w) = some (.int w.toInt) := by
  have h1 := (Verif.Value.C01_integer_roundtrip w.toInt).1
  have h2 : store (.int w.toInt) = object_id w := by
    have hw : Verif.Value.InI64 w.toInt := by
      have a := BitVec.le_toInt w
      have b := BitVec.toInt_lt (x := w)
      constructor <;> simpa using ‹_›
    simp [store, Verif.Value.bignum, object_id, hw]
  rw [← h2]
  exact h1

/-! ## C120 -/

/-- **C120** (the collector finds the page and the mark of an object).  From the address of a cell it computes the page, and a bit that is the cell's own. -/
theorem C120_mark (L : Layout) (P : Pages) (c : Cell) (h : P.Has c) :
    from_inner (addr L P c) = P.base c.page ∧ (bit_of L (addr L P c)).1 < 63 ∧ (bit_of L (addr L P c)).2 < 64 ∧
    (bit_of L (addr L P c)).1 * 64 + (bit_of L (addr L P c)).2 = c.idx := by
  have h1 : index_of L (addr L P c) = c.idx := index_of_data L P c.page c.idx h.1 h.2
  have hd : DATA_LEN = 4032 := rfl
  have h2 := h.2
  refine ⟨from_inner_data L P c.page c.idx h.1 h.2, ?_⟩
  simp only [bit_of, h1]
  omega

/-- **C120** (objects do not overlap).  The 64 bytes of two cells have nothing in common; and no word of the mark bits is inside a cell, so that marking leaves objects alone. -/
theorem C120_apart (L : Layout) (P : Pages) (c d : Cell) (hc : P.Has c) (hd : P.Has d) (b : Nat) :
    (c ≠ d → ¬ (bytes (addr L P c) 64 b ∧ bytes (addr L P d) 64 b)) ∧
    ¬ (bytes (mark_word L (addr L P c)) 8 b ∧ bytes (addr L P d) 64 b) := by
  have hD : DATA_LEN = 4032 := rfl
  have ec := data_toNat L P c.page c.idx hc.1 hc.2
  have ed := data_toNat L P d.page d.idx hd.1 hd.2
  have ac := P.aligned c.page hc.1
  have ad := P.aligned d.page hd.1
  have ld := L.dataIn
  have lm := L.marksIn
  have la := L.apart
  have rc := base_room P c.page hc.1
  have ic := hc.2
  have id := hd.2
  simp only [alloc_size, GCBOX_SIZE] at ac ad ld lm la rc
  have same : (P.base c.page).toNat = (P.base d.page).toNat → c.page = d.page := fun k => P.different _ _ hc.1 hd.1 (BitVec.eq_of_toNat_eq k)
  constructor
  · intro hne
    rintro ⟨⟨b1, b2⟩, ⟨b3, b4⟩⟩
    simp only [addr, ec, ed] at b1 b2 b3 b4
    have hb : (P.base c.page).toNat = (P.base d.page).toNat := by omega
    have hp := same hb
    have hi : c.idx = d.idx := by omega
    exact hne (by cases c; cases d; simp_all)
  · rintro ⟨⟨b1, b2⟩, ⟨b3, b4⟩⟩
    obtain ⟨m1, m2, m3, m4⟩ := C120_mark L P c hc
    have em : (mark_word L (addr L P c)).toNat = (P.base c.page).toNat + (L.marks + (bit_of L (addr L P c)).1 * 8) := by
      unfold mark_word
      rw [m1, BitVec.toNat_add, BitVec.toNat_ofNat]
      omega
    rw [em] at b1 b2
    simp only [addr, ed] at b3 b4
    have hb : (P.base c.page).toNat = (P.base d.page).toNat := by omega
    omega

/-- **C120** (identity; part: values that are one word, without the two floats of C02).  Two values have the same `object_id` exactly when they are the same, and
`equal?` says so. -/
theorem C120_object_id_partial (L : Layout) (P : Pages) {x y : Thing} {v w : Word} (hx : IsWord L P x v) (hy : IsWord L P y w)
    (fx : x.fine) (fy : y.fine) :
    (load (object_id v) = load (object_id w) ↔ x = y) ∧ (equal v w = true ↔ x = y) := by
  have key : v = w ↔ x = y := by
    constructor
    · rintro rfl
      cases x with
      | imm s =>
        cases y with
        | imm t => rw [Verif.Value.C02_no_alias_partial s t fx fy (hx.trans hy.symm)]
        | object d => exact absurd (hy.2 ▸ addr_isAddress L P d hy.1) (Verif.Value.C02_immediate_not_address s v hx).1
      | object c =>
        cases y with
        | imm t => exact absurd (hx.2 ▸ addr_isAddress L P c hx.1) (Verif.Value.C02_immediate_not_address t v hy).1
        | object d => rw [addr_inj L P hx.1 hy.1 (hx.2.symm.trans hy.2)]
    · rintro rfl
      cases x with
      | imm s => exact Val.word.inj (hx.symm.trans hy)
      | object c => exact hx.2.trans hy.2.symm
  refine ⟨?_, by rw [← key]; simp [equal]⟩
  rw [← key, load_id, load_id]
  constructor
  · intro h
    exact BitVec.eq_of_toInt_eq (by simpa using h)
  · rintro rfl; rfl

/-- **C120** (violated, see C02).  `0.0` and the float `tinyFloat` have the same identity. -/
theorem C120_object_id_fails : ∃ v, store (.float 0#64) = .word v ∧ store (.float Verif.Value.tinyFloat) = .word v ∧
    equal v v = true ∧ Verif.Value.tinyFloat ≠ 0#64 := ⟨Verif.Value.ZERO, by decide, by decide, by decide, by decide⟩

/-- **C120** (objects that live at the same time).  `P` are at least the pages in use.  In every state that a program reaches, two objects that are there have different identities. -/
theorem C120_live {D : Type} {refs : D → List Cell} {s : Control.St D} (R : Control.Reached refs s) (L : Layout) (P : Pages) {c d : Cell}
    (hP : s.m.a.next_page ≤ P.n) (hc : (contents s.m.a c).isSome) (hd : (contents s.m.a d).isSome) (hne : c ≠ d) :
    load (object_id (addr L P c)) ≠ load (object_id (addr L P d)) ∧ equal (addr L P c) (addr L P d) = false := by
  obtain ⟨⟨l, hw⟩, -⟩ := (Control.run_reached R).inv
  have range : ∀ {x : Cell}, (contents s.m.a x).isSome → P.Has x := by
    intro x hx
    have hu := hw.used
    have hk := hw.known x.page
    rcases ((hw.live x).1 hx).1 with h | h
    · exact ⟨by have := hk.2 (.inl h.1); omega, h.2⟩
    · exact ⟨by have := hk.2 (.inr (.inl h.1)); omega, by omega⟩
  have := C120_object_id_partial L P (x := .object c) (y := .object d) ⟨range hc, rfl⟩ ⟨range hd, rfl⟩ trivial trivial
  have hn : ¬ Thing.object c = Thing.object d := fun k => hne (by cases k; rfl)
  refine ⟨fun k => hn (this.1.1 k), ?_⟩
  cases he : equal (addr L P c) (addr L P d) with
  | false => rfl
  | true => exact absurd (this.2.1 he) hn

/-! ### Instances -/

/-- The cells first, then the marks. -/
def layout : Layout := ⟨0, 258048, by decide, by decide, by decide, by decide⟩

/-- Two pages. -/
def pages : Pages where
  n := 2
  base p := if p = 0 then 0x7f00000c0000#64 else 0x7f0000100000#64
  aligned p _ := by by_cases h : p = 0 <;> simp [h] <;> decide
  different p q hp hq h := by
    have : ¬ (0x7f00000c0000#64 : Word) = 0x7f0000100000#64 := by decide
    have h' : ¬ (0x7f0000100000#64 : Word) = 0x7f00000c0000#64 := by decide
    by_cases h1 : p = 0 <;> by_cases h2 : q = 0
    · omega
    · simp only [h1, h2, if_true, if_false] at h; exact absurd h this
    · simp only [h1, h2, if_true, if_false] at h; exact absurd h h'
    · omega
  notNull p _ := by by_cases h : p = 0 <;> simp [h]

example : pages.Has ⟨1, 65⟩ ∧ addr layout pages ⟨1, 65⟩ = 0x7f0000101040#64 ∧ (Control.St.init (D := Nat)).m.a.next_page ≤ pages.n := by
  refine ⟨⟨by decide, by decide⟩, by decide, by decide⟩

example : from_inner 0x7f00000c1040#64 = 0x7f00000c0000#64 ∧ bit_of layout 0x7f00000c1040#64 = (1, 1) := by decide

/-- `1.object_id` is 3, `nil.object_id` is 36. -/
example : load (object_id 3#64) = some (.int 3) ∧ store (.int 1) = .word 3#64 ∧ store .nil = .word 36#64 := by decide

end Address
end Verif.Heap
