import Verif.Sort.Model
/-! Helper lemmas: the in-place loops compute a plain merge of two lists. -/
namespace Verif.Sort
section
variable {T σ ε : Type}

/-- A merge of two lists that stops, leaving the rest in place, when the comparison raises. -/
def mergeE (is_less : Less T σ ε) : List T → List T → σ → Out T σ ε
  | [], B, s => (B, s, .ok ())
  | a :: A, [], s => (a :: A, s, .ok ())
  | a :: A, b :: B, s =>
    match is_less b a s with
    | (.error e, s') => (a :: A ++ b :: B, s', .error e)
    | (.ok true, s') => (b :: (mergeE is_less (a :: A) B s').1, (mergeE is_less (a :: A) B s').2)
    | (.ok false, s') => (a :: (mergeE is_less A (b :: B) s').1, (mergeE is_less A (b :: B) s').2)
  termination_by A B => A.length + B.length

variable (is_less : Less T σ ε)

theorem mergeE_nil (A : List T) (s : σ) : mergeE is_less A [] s = (A, s, .ok ()) := by
  cases A <;> simp [mergeE]

theorem set_mid (A B : List T) (x y : T) (n : Nat) (h : n = A.length) : (A ++ x :: B).set n y = A ++ y :: B := by
  subst h; simp

theorem copyTo_mid (A G B src : List T) (n : Nat) (hn : n = A.length) (h : src.length = G.length) :
    copyTo (A ++ G ++ B) n src = A ++ src ++ B := by
  subst hn
  have e : A ++ G ++ B = A ++ (G ++ B) := by simp
  have e2 : (A ++ G ++ B).drop (A.length + G.length) = B := List.drop_left' (by simp)
  rw [copyTo, h, e2, e, List.take_left]

theorem insertLoop_spec (tmp : T) : ∀ (R P : List T) (g : T) (fuel : Nat) (s : σ), R.length < fuel →
    let o := insertLoop is_less tmp fuel (P ++ g :: R) (P.length + 1) P.length s
    (o.1.set o.2.1 tmp, o.2.2) = (P ++ (mergeE is_less [tmp] R s).1, (mergeE is_less [tmp] R s).2) := by
  intro R
  induction R with
  | nil =>
    intro P g fuel s hf
    obtain ⟨fuel, rfl⟩ : ∃ k, fuel = k + 1 := ⟨fuel - 1, by simp at hf; omega⟩
    simp [insertLoop, mergeE]
  | cons x R ih =>
    intro P g fuel s hf
    obtain ⟨fuel, rfl⟩ : ∃ k, fuel = k + 1 := ⟨fuel - 1, by simp at hf; omega⟩
    have hget : (P ++ g :: x :: R)[P.length + 1]? = some x := by
      rw [List.getElem?_append_right (by omega)]; simp
    dsimp only
    rw [insertLoop, hget, mergeE]
    dsimp only
    rcases hl : is_less x tmp s with ⟨r, s'⟩
    rcases r with e | b
    · simp
    · cases b
      · simp [mergeE]
      · have hset : (P ++ g :: x :: R).set (P.length + 1 - 1) x = (P ++ [x]) ++ x :: R := by simp
        have := ih (P ++ [x]) x fuel s' (by simp at hf; omega)
        simp only [List.length_append, List.length_cons, List.length_nil, Nat.zero_add] at this
        simp only [hset]
        rw [this]
        simp

theorem insert_head_eq (a : T) (xs : List T) (s : σ) :
    insert_head is_less (a :: xs) s = mergeE is_less [a] xs s := by
  cases xs with
  | nil => simp [insert_head, mergeE]
  | cons x xs =>
    rw [insert_head, mergeE]
    rcases hl : is_less x a s with ⟨r, s'⟩
    rcases r with e | b
    · simp
    · cases b
      · simp [mergeE]
      · have := insertLoop_spec is_less a xs [x] x (a :: x :: xs).length s' (by simp; omega)
        simp only [List.length_cons, List.length_nil, Nat.zero_add, List.singleton_append] at this
        simp only [List.set_cons_zero, List.length_cons]
        rw [← this]

theorem mergeLo_spec (buf : List T) : ∀ (fuel : Nat) (O G R : List T) (left : Nat) (s : σ),
    left + G.length = buf.length → G.length + R.length < fuel + 1 →
    let o := mergeLoLoop is_less buf fuel (O ++ G ++ R) left (O.length + G.length) O.length s
    (copyTo o.1 o.2.2.1 (buf.drop o.2.1), o.2.2.2) =
      (O ++ (mergeE is_less (buf.drop left) R s).1, (mergeE is_less (buf.drop left) R s).2) := by
  intro fuel
  induction fuel with
  | zero =>
    intro O G R left s h1 h2
    have hG : G = [] := List.length_eq_zero_iff.mp (by omega)
    have hR : R = [] := List.length_eq_zero_iff.mp (by omega)
    subst hG hR
    have : left = buf.length := by simpa using h1
    subst this
    simp [mergeLoLoop, mergeE, copyTo]
  | succ fuel ih =>
    intro O G R left s h1 h2
    dsimp only
    rw [mergeLoLoop]
    cases G with
    | nil =>
      have : left = buf.length := by simpa using h1
      subst this
      simp [mergeE, copyTo]
    | cons g G =>
      have hlt : left < buf.length := by simp at h1; omega
      have hdrop : buf.drop left = buf[left] :: buf.drop (left + 1) := List.drop_eq_getElem_cons hlt
      have hbuf : buf[left]? = some buf[left] := List.getElem?_eq_getElem hlt
      cases R with
      | nil =>
        have : (O ++ g :: G ++ [])[O.length + (g :: G).length]? = none := by
          rw [List.getElem?_eq_none]; simp
        rw [this, hbuf]
        simp only [mergeE_nil]
        have hl : (buf.drop left).length = (g :: G).length := by simp at h1 ⊢; omega
        simp only [copyTo, hl]
        simp
      | cons r R =>
        have hget : (O ++ g :: G ++ r :: R)[O.length + (g :: G).length]? = some r := by
          rw [List.getElem?_append_right (by simp)]; simp
        rw [hget, hbuf, hdrop, mergeE]
        dsimp only
        rcases hl : is_less r buf[left] s with ⟨c, s'⟩
        rcases c with e | b
        · have hl : (buf.drop left).length = (g :: G).length := by simp at h1 ⊢; omega
          simp only [copyTo, hl]
          rw [hdrop]
          simp
        · cases b
          · have hset : (O ++ g :: G ++ r :: R).set O.length buf[left] = (O ++ [buf[left]]) ++ G ++ r :: R := by
              simp
            have := ih (O ++ [buf[left]]) G (r :: R) (left + 1) s' (by simp at h1; omega) (by simp at h2 ⊢; omega)
            simp only [List.length_append, List.length_cons, List.length_nil, Nat.zero_add] at this
            have e1 : O.length + 1 + G.length = O.length + (G.length + 1) := by omega
            rw [e1] at this
            simp only [hset, List.length_cons]
            rw [this]
            simp
          · have hset : (O ++ g :: G ++ r :: R).set O.length r = (O ++ [r]) ++ (G ++ [r]) ++ R := by
              simp
            have := ih (O ++ [r]) (G ++ [r]) R left s' (by simp at h1 ⊢; omega) (by simp at h2 ⊢; omega)
            simp only [List.length_append, List.length_cons, List.length_nil, Nat.zero_add] at this
            have e1 : O.length + 1 + (G.length + 1) = O.length + (G.length + 1) + 1 := by omega
            rw [e1, hdrop] at this
            simp only [hset, List.length_cons]
            rw [this]
            simp

theorem mergeHi_spec (buf : List T) : ∀ (fuel : Nat) (L G O : List T) (s : σ),
    G.length ≤ buf.length → G.length + L.length < fuel + 1 →
    let o := mergeHiLoop is_less buf fuel (L ++ G ++ O) L.length G.length (L.length + G.length) s
    let m := mergeE (fun x y => is_less y x) (buf.take G.length).reverse L.reverse s
    (copyTo o.1 o.2.1 (buf.take o.2.2.1), o.2.2.2) = (m.1.reverse ++ O, m.2) := by
  intro fuel
  induction fuel with
  | zero =>
    intro L G O s h1 h2
    have hG : G = [] := List.length_eq_zero_iff.mp (by omega)
    have hL : L = [] := List.length_eq_zero_iff.mp (by omega)
    subst hG hL
    simp [mergeHiLoop, mergeE, copyTo]
  | succ fuel ih =>
    intro L G O s h1 h2
    dsimp only
    rcases List.eq_nil_or_concat L with rfl | ⟨L, l, rfl⟩
    · simp only [List.length_nil, List.reverse_nil, mergeE_nil]
      rw [mergeHiLoop]
      · simp [copyTo, Nat.min_eq_left h1]
      · intro a b h; simp at h
    · rcases List.eq_nil_or_concat G with rfl | ⟨G, g, rfl⟩
      · rw [mergeHiLoop]
        · simp [copyTo, mergeE, List.take_append, List.drop_append, List.take_of_length_le, List.drop_eq_nil_of_le]
        · intro a b _ h; simp at h
      · have hlt : G.length < buf.length := by simp at h1; omega
        have hbuf : buf[G.length]? = some buf[G.length] := List.getElem?_eq_getElem hlt
        have htake : buf.take (G.length + 1) = buf.take G.length ++ [buf[G.length]] := by
          rw [List.take_succ_eq_append_getElem hlt]
        have hget : (L ++ [l] ++ (G ++ [g]) ++ O)[L.length]? = some l := by simp
        have eL : (L ++ [l]).length = L.length + 1 := by simp
        have eG : (G ++ [g]).length = G.length + 1 := by simp
        simp only [List.concat_eq_append, eL, eG]
        rw [mergeHiLoop, hbuf, hget, htake]
        dsimp only
        simp only [List.reverse_append, List.reverse_cons, List.reverse_nil, List.nil_append, List.singleton_append]
        rw [mergeE]
        rcases hl : is_less buf[G.length] l s with ⟨c, s'⟩
        rcases c with e | b
        · have hl : (buf.take (G.length + 1)).length = G.length + 1 := by simp; omega
          simp only
          rw [copyTo_mid _ _ _ _ _ eL.symm (hl.trans eG.symm), htake]
          simp
        · cases b
          · have hset : (L ++ [l] ++ (G ++ [g]) ++ O).set (L.length + 1 + (G.length + 1) - 1) buf[G.length]
                = (L ++ [l]) ++ G ++ ([buf[G.length]] ++ O) := by
              have e0 : L ++ [l] ++ (G ++ [g]) ++ O = (L ++ [l] ++ G) ++ g :: O := by simp
              rw [e0, set_mid _ _ _ _ _ (by simp; omega)]
              simp
            have := ih (L ++ [l]) G ([buf[G.length]] ++ O) s' (by omega) (by simp at h2 ⊢; omega)
            simp only [List.length_append, List.length_cons, List.length_nil, Nat.zero_add] at this
            have e1 : L.length + 1 + (G.length + 1) - 1 = L.length + 1 + G.length := by omega
            simp only [hset]
            rw [e1, this]
            simp
          · have hset : (L ++ [l] ++ (G ++ [g]) ++ O).set (L.length + 1 + (G.length + 1) - 1) l
                = L ++ ([l] ++ G) ++ ([l] ++ O) := by
              have e0 : L ++ [l] ++ (G ++ [g]) ++ O = (L ++ [l] ++ G) ++ g :: O := by simp
              rw [e0, set_mid _ _ _ _ _ (by simp; omega)]
              simp
            have := ih L ([l] ++ G) ([l] ++ O) s' (by simp; omega) (by simp at h2 ⊢; omega)
            simp only [List.length_append, List.length_cons, List.length_nil, Nat.zero_add] at this
            have e1 : L.length + 1 + (G.length + 1) - 1 = L.length + (1 + G.length) := by omega
            have e2 : 1 + G.length = G.length + 1 := by omega
            simp only [hset]
            rw [e2] at this e1
            rw [e1, this, htake]
            simp only [List.reverse_append, List.reverse_cons, List.reverse_nil, List.nil_append, List.singleton_append,
              List.append_assoc]

/-- What `merge` does to two adjacent runs. -/
theorem merge_eq (A B : List T) (s : σ) : merge is_less (A ++ B) A.length s =
    if A.length ≤ B.length then mergeE is_less A B s
    else ((mergeE (fun x y => is_less y x) B.reverse A.reverse s).1.reverse,
          (mergeE (fun x y => is_less y x) B.reverse A.reverse s).2) := by
  unfold merge
  have h : (A ++ B).length - A.length = B.length := by simp
  simp only [h]
  split
  · have := mergeLo_spec is_less A (A ++ B).length [] A B 0 s (by simp) (by simp)
    simp only [List.nil_append, List.length_nil, Nat.zero_add, List.drop_zero] at this
    simp only [List.take_left]
    exact this
  · have := mergeHi_spec is_less B (A ++ B).length A B [] s (by simp) (by simp; omega)
    simp only [List.append_nil, List.take_length] at this
    simp only [List.drop_left]
    rw [← this]
    simp

end
end Verif.Sort
