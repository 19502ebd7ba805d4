import Verif.Str.Spec
namespace Verif.Str

theorem utf8_append (s t : Text) : utf8 (s ++ t) = utf8 s ++ utf8 t := by simp [utf8]

theorem utf8Encode_eq (s : Text) : s.utf8Encode = (utf8 s).toByteArray := by
  simp [utf8, List.utf8Encode]

theorem from_utf8_utf8 (s : Text) : from_utf8 (utf8 s) = some s := by
  unfold from_utf8
  rw [← utf8Encode_eq, List.utf8Decode?_utf8Encode]
  simp

theorem utf8_of_from_utf8 {b : Bytes} {s : Text} (h : from_utf8 b = some s) : utf8 s = b := by
  unfold from_utf8 at h
  cases hd : b.toByteArray.utf8Decode? with
  | none => simp [hd] at h
  | some a =>
    simp only [hd, Option.map_some, Option.some.injEq] at h
    have := ByteArray.utf8Encode_get_utf8Decode? (b := b.toByteArray) (h := by simp [hd])
    simp only [hd, Option.get_some, h, utf8Encode_eq] at this
    have h2 := congrArg (fun x => x.data.toList) this
    simpa using h2

theorem utf8_inj {s t : Text} (h : utf8 s = utf8 t) : s = t := by
  have := from_utf8_utf8 s
  rw [h, from_utf8_utf8] at this
  exact (Option.some.inj this).symm

theorem isText_iff (b : Bytes) : IsText b ↔ ∃ s, from_utf8 b = some s := by
  constructor
  · rintro ⟨s, rfl⟩; exact ⟨s, from_utf8_utf8 s⟩
  · rintro ⟨s, h⟩; exact ⟨s, utf8_of_from_utf8 h⟩

end Verif.Str
