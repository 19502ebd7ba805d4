import Verif.Sort.Lemmas
import Mathlib.Data.List.Chain
/-! The invariant of the whole sort, for an arbitrary notion of "sorted segment" and "same elements" that the
elementary steps respect. -/
namespace Verif.Sort
section
variable {T σ ε : Type}

/-- The result is success, or an exception that some comparison raised. -/
def Raised (is_less : Less T σ ε) (r : Except ε Unit) : Prop :=
  r = .ok () ∨ ∃ a b s s' e, is_less a b s = (.error e, s') ∧ r = .error e

structure Adm (is_less : Less T σ ε) (Srt : List T → Prop) (Sim : List T → List T → Prop) : Prop where
  refl : ∀ l, Sim l l
  trans : ∀ a b c, Sim a b → Sim b c → Sim a c
  app : ∀ a a' b b', Sim a a' → Sim b b' → Sim (a ++ b) (a' ++ b')
  nil : Srt []
  single : ∀ a, Srt [a]
  lo : ∀ A B s, Srt A → Srt B → Sim (A ++ B) (mergeE is_less A B s).1 ∧
    ((mergeE is_less A B s).2.2 = .ok () → Srt (mergeE is_less A B s).1)
  hi : ∀ A B s, Srt A → Srt B →
    Sim (A ++ B) (mergeE (fun x y => is_less y x) B.reverse A.reverse s).1.reverse ∧
    ((mergeE (fun x y => is_less y x) B.reverse A.reverse s).2.2 = .ok () →
      Srt (mergeE (fun x y => is_less y x) B.reverse A.reverse s).1.reverse)
  asc : ∀ l, l.IsChain (fun a b => ∃ s s', is_less b a s = (.ok false, s')) → Srt l
  desc : ∀ l, l.IsChain (fun a b => ∃ s s', is_less b a s = (.ok true, s')) → Srt l.reverse ∧ Sim l l.reverse

variable (is_less : Less T σ ε)

theorem mergeE_length (A B : List T) (s : σ) : (mergeE is_less A B s).1.length = A.length + B.length := by
  fun_induction mergeE is_less A B s <;> simp_all <;> omega

theorem merge_length (A B : List T) (s : σ) : (merge is_less (A ++ B) A.length s).1.length = A.length + B.length := by
  rw [merge_eq]
  split <;> simp [mergeE_length]
  omega

theorem mergeE_raised : ∀ (A B : List T) (s : σ), Raised is_less (mergeE is_less A B s).2.2 := by
  intro A B s
  fun_induction mergeE is_less A B s with
  | case1 => exact .inl rfl
  | case2 => exact .inl rfl
  | case3 s a A b B e s' h => exact .inr ⟨_, _, _, _, _, h, rfl⟩
  | case4 => assumption
  | case5 => assumption

theorem mergeE_raised' (A B : List T) (s : σ) :
    Raised is_less (mergeE (fun x y => is_less y x) A B s).2.2 := by
  rcases mergeE_raised (fun x y => is_less y x) A B s with h | ⟨a, b, s1, s2, e, h, h'⟩
  · exact .inl h
  · exact .inr ⟨b, a, s1, s2, e, h, h'⟩

variable {is_less} {Srt : List T → Prop} {Sim : List T → List T → Prop} (adm : Adm is_less Srt Sim)
include adm

theorem merge_inv (A B : List T) (s : σ) (hA : Srt A) (hB : Srt B) :
    Sim (A ++ B) (merge is_less (A ++ B) A.length s).1 ∧
    ((merge is_less (A ++ B) A.length s).2.2 = .ok () → Srt (merge is_less (A ++ B) A.length s).1) ∧
    Raised is_less (merge is_less (A ++ B) A.length s).2.2 := by
  rw [merge_eq]
  split
  · exact ⟨(adm.lo A B s hA hB).1, (adm.lo A B s hA hB).2, mergeE_raised is_less A B s⟩
  · exact ⟨(adm.hi A B s hA hB).1, (adm.hi A B s hA hB).2, mergeE_raised' is_less _ _ s⟩

omit adm in
theorem onSlice_mid (f : List T → σ → Out T σ ε) (p q r : List T) (a b : Nat) (ha : a = p.length) (hb : b = p.length + q.length)
    (s : σ) : onSlice f (p ++ q ++ r) a b s = (p ++ (f q s).1 ++ r, (f q s).2) := by
  subst ha hb
  have h1 : (p ++ q ++ r).take (p.length + q.length) = p ++ q := List.take_left' (by simp)
  have h2 : (p ++ q ++ r).drop (p.length + q.length) = r := List.drop_left' (by simp)
  rw [onSlice, h1, h2]
  simp

theorem insertionSort_inv : ∀ (n : Nat) (p q : List T) (s : σ), p.length = n → Srt q →
    Sim (p ++ q) (insertionSort is_less n (p ++ q) s).1 ∧
    ((insertionSort is_less n (p ++ q) s).2.2 = .ok () → Srt (insertionSort is_less n (p ++ q) s).1) ∧
    Raised is_less (insertionSort is_less n (p ++ q) s).2.2 := by
  intro n
  induction n with
  | zero =>
    intro p q s hp hq
    have : p = [] := List.length_eq_zero_iff.mp hp
    subst this
    exact ⟨adm.refl _, fun _ => by simpa [insertionSort] using hq, .inl rfl⟩
  | succ n ih =>
    intro p q s hp hq
    rcases List.eq_nil_or_concat p with rfl | ⟨p, a, rfl⟩
    · simp at hp
    · have hp' : p.length = n := by simpa using hp
      have e : p.concat a ++ q = p ++ (a :: q) ++ [] := by simp
      have hs := onSlice_mid (insert_head is_less) p (a :: q) [] n (p.concat a ++ q).length hp'.symm
        (by simp [hp']) s
      rw [← e] at hs
      rw [insertionSort, hs, insert_head_eq]
      have hm := adm.lo [a] q s (adm.single a) hq
      have hr := mergeE_raised is_less [a] q s
      rcases hme : mergeE is_less [a] q s with ⟨w, s', r⟩
      rw [hme] at hm hr
      dsimp only at hm hr ⊢
      have hsim : Sim (p.concat a ++ q) (p ++ w) := by
        have e' : p.concat a ++ q = p ++ ([a] ++ q) := by simp
        rw [e']
        exact adm.app _ _ _ _ (adm.refl p) hm.1
      rcases r with er | ⟨⟩
      · refine ⟨?_, ?_, hr⟩
        · simpa using hsim
        · intro h; simp at h
      · have := ih p w s' hp' (hm.2 rfl)
        simp only [List.append_nil]
        exact ⟨adm.trans _ _ _ hsim this.1, this.2⟩

omit adm in
theorem extendRun_spec (want : Bool) (suf : List T) : ∀ (n : Nat) (p : List T) (x : T) (q : List T) (s : σ), p.length = n →
    (x :: q).IsChain (fun a b => ∃ s s', is_less b a s = (.ok want, s')) →
    ∃ p' q', p ++ x :: q = p' ++ q' ∧ p'.length = (extendRun is_less want (p ++ x :: q ++ suf) n s).1 ∧
      q'.IsChain (fun a b => ∃ s s', is_less b a s = (.ok want, s')) ∧ q.length < q'.length ∧
      Raised is_less (extendRun is_less want (p ++ x :: q ++ suf) n s).2.2 := by
  intro n
  induction n with
  | zero =>
    intro p x q s hp hc
    have : p = [] := List.length_eq_zero_iff.mp hp
    subst this
    exact ⟨[], x :: q, rfl, rfl, hc, by simp, .inl rfl⟩
  | succ n ih =>
    intro p x q s hp hc
    rcases List.eq_nil_or_concat p with rfl | ⟨p, y, rfl⟩
    · simp at hp
    · have hp' : p.length = n := by simpa using hp
      have e : p.concat y ++ x :: q = p ++ y :: (x :: q) := by simp
      rw [e, extendRun]
      have g1 : (p ++ y :: x :: q ++ suf)[n + 1]? = some x := by
        rw [List.append_assoc, List.getElem?_append_right (by omega)]; simp [hp']
      have g2 : (p ++ y :: x :: q ++ suf)[n]? = some y := by
        rw [List.append_assoc, List.getElem?_append_right (by omega)]; simp [hp']
      rw [g1, g2]
      dsimp only
      rcases hl : is_less x y s with ⟨c, s'⟩
      rcases c with er | b
      · exact ⟨p ++ [y], x :: q, by simp, by simp [hp'], hc, by simp, .inr ⟨_, _, _, _, _, hl, rfl⟩⟩
      · dsimp only
        by_cases hb : b = want
        · rw [if_pos hb]
          have := ih p y (x :: q) s' hp' (by
            rw [List.isChain_cons_cons]
            exact ⟨⟨s, s', by rw [hl, hb]⟩, hc⟩)
          obtain ⟨p', q', h1, h2, h3, h4, h5⟩ := this
          exact ⟨p', q', h1, h2, h3, by simp at h4 ⊢; omega, h5⟩
        · rw [if_neg hb]
          exact ⟨p ++ [y], x :: q, by simp, by simp [hp'], hc, by simp, .inl rfl⟩

/-- The natural run found at the end of `pre`. -/
theorem findRun_inv (pre suf : List T) (s : σ) (hpre : pre ≠ []) :
    let o := findRun is_less (pre ++ suf) pre.length s
    ∃ p q q', pre = p ++ q ∧ o.1 = p ++ q' ++ suf ∧ Sim q q' ∧ q ≠ [] ∧ q.length = q'.length ∧
      (o.2.2.2 = .ok () → Srt q' ∧ p.length = o.2.1) ∧ Raised is_less o.2.2.2 := by
  dsimp only
  rcases List.eq_nil_or_concat pre with rfl | ⟨pre, x, rfl⟩
  · exact absurd rfl hpre
  · rcases List.eq_nil_or_concat pre with rfl | ⟨p, y, rfl⟩
    · refine ⟨[], [x], [x], by simp, ?_, adm.refl _, by simp, rfl, ?_, ?_⟩
      · simp [findRun]
      · intro _; exact ⟨adm.single _, by simp [findRun]⟩
      · left; simp [findRun]
    · have hlen : ((p.concat y).concat x).length = p.length + 2 := by simp
      have e : (p.concat y).concat x ++ suf = p ++ y :: [x] ++ suf := by simp
      have e' : (p.concat y).concat x = p ++ y :: [x] := by simp
      rw [findRun, hlen, e, e']
      dsimp only
      rw [if_pos (by omega)]
      have g1 : (p ++ [y, x] ++ suf)[p.length + 2 - 1 - 1 + 1]? = some x := by
        rw [List.append_assoc, List.getElem?_append_right (by omega)]; simp
      have g2 : (p ++ [y, x] ++ suf)[p.length + 2 - 1 - 1]? = some y := by
        rw [List.append_assoc, List.getElem?_append_right (by omega)]; simp
      rw [g1, g2]
      dsimp only
      have e3 : p.length + 2 - 1 - 1 = p.length := by omega
      rw [e3]
      rcases hl : is_less x y s with ⟨c, s'⟩
      rcases c with er | b
      · exact ⟨p, [y, x], [y, x], rfl, rfl, adm.refl _, by simp, rfl, fun h => by simp at h,
          .inr ⟨_, _, _, _, _, hl, rfl⟩⟩
      · cases b
        · have := extendRun_spec (is_less := is_less) false suf p.length p y [x] s' rfl (by
            rw [List.isChain_cons_cons]; exact ⟨⟨s, s', hl⟩, by simp⟩)
          obtain ⟨p', q', h1, h2, h3, h4, h5⟩ := this
          dsimp only
          refine ⟨p', q', q', h1, by rw [h1], adm.refl _, by rintro rfl; simp at h4, rfl, ?_, h5⟩
          intro _
          exact ⟨adm.asc _ h3, h2⟩
        · have := extendRun_spec (is_less := is_less) true suf p.length p y [x] s' rfl (by
            rw [List.isChain_cons_cons]; exact ⟨⟨s, s', hl⟩, by simp⟩)
          obtain ⟨p', q', h1, h2, h3, h4, h5⟩ := this
          dsimp only
          rcases her : extendRun is_less true (p ++ [y, x] ++ suf) p.length s' with ⟨st, s'', r⟩
          rw [her] at h2 h5
          dsimp only at h2 h5 ⊢
          have hne : q' ≠ [] := by rintro rfl; simp at h4
          rcases r with er | ⟨⟩
          · exact ⟨p', q', q', h1, by rw [h1], adm.refl _, hne, rfl, fun h => by simp at h, h5⟩
          · have hl2 : p.length + 2 = (p' ++ q').length := by rw [← h1]; simp
            have t1 : (p ++ [y, x] ++ suf).take (p.length + 2) = p' ++ q' := by
              rw [h1, hl2]; exact List.take_left
            have t2 : (p ++ [y, x] ++ suf).drop (p.length + 2) = suf := by
              rw [h1, hl2]; exact List.drop_left
            have t3 : (p ++ [y, x] ++ suf).take st = p' := by
              rw [h1, ← h2, List.append_assoc]; exact List.take_left
            have t4 : (p' ++ q').drop st = q' := by rw [← h2]; exact List.drop_left
            refine ⟨p', q', q'.reverse, h1, ?_, (adm.desc _ h3).2, hne, by simp, ?_, .inl rfl⟩
            · dsimp only
              rw [t1, t2, t3, t4]
            · intro _; exact ⟨(adm.desc _ h3).1, h2⟩

theorem growRun_inv (suf : List T) (fin : Nat) : ∀ (n : Nat) (p q : List T) (s : σ), p.length = n → p.length + q.length = fin →
    Srt q →
    let o := growRun is_less fin n (p ++ q ++ suf) s
    ∃ p' m q', p = p' ++ m ∧ o.1 = p' ++ q' ++ suf ∧ Sim (m ++ q) q' ∧ q'.length = m.length + q.length ∧
      (o.2.2.2 = .ok () → Srt q' ∧ p'.length = o.2.1) ∧ Raised is_less o.2.2.2 := by
  intro n
  induction n with
  | zero =>
    intro p q s hp hf hq
    have : p = [] := List.length_eq_zero_iff.mp hp
    subst this
    exact ⟨[], [], q, rfl, rfl, adm.refl _, by simp, fun _ => ⟨hq, rfl⟩, .inl rfl⟩
  | succ n ih =>
    intro p q s hp hf hq
    dsimp only
    rcases List.eq_nil_or_concat p with rfl | ⟨p, a, rfl⟩
    · simp at hp
    · have hp' : p.length = n := by simpa using hp
      rw [growRun]
      split
      · have e : p.concat a ++ q ++ suf = p ++ (a :: q) ++ suf := by simp
        rw [e, onSlice_mid (insert_head is_less) p (a :: q) suf n fin hp'.symm (by simp at hf ⊢; omega) s, insert_head_eq]
        have hm := adm.lo [a] q s (adm.single a) hq
        have hr := mergeE_raised is_less [a] q s
        have hlen : (mergeE is_less [a] q s).1.length = q.length + 1 := by
          rw [mergeE_length]; simp; omega
        rcases hme : mergeE is_less [a] q s with ⟨w, s', r⟩
        rw [hme] at hm hr hlen
        dsimp only at hm hr hlen ⊢
        rcases r with er | ⟨⟩
        · exact ⟨p, [a], w, by simp, rfl, hm.1, by simp [hlen]; omega, fun h => by simp at h, hr⟩
        · have := ih p w s' hp' (by rw [hlen]; simp at hf; omega) (hm.2 rfl)
          obtain ⟨p', m, q', h1, h2, h3, h4, h5, h6⟩ := this
          refine ⟨p', m ++ [a], q', by rw [h1]; simp, h2, ?_, by simp [h4, hlen]; omega, h5, h6⟩
          refine adm.trans _ _ _ ?_ h3
          rw [List.append_assoc]
          exact adm.app _ _ _ _ (adm.refl m) hm.1
      · exact ⟨p.concat a, [], q, by simp, rfl, adm.refl _, by simp, fun _ => ⟨hq, by simp [hp']⟩, .inl rfl⟩

/-- The stack of runs describes consecutive segments that start at offset `at_`. -/
def Rep : (at_ : Nat) → List Run → List (List T) → Prop
  | _, [], [] => True
  | p, r :: runs, seg :: segs => r.start = p ∧ r.len = seg.length ∧ Rep (p + seg.length) runs segs
  | _, _, _ => False

theorem collapseLoop_inv (pre : List T) : ∀ (fuel : Nat) (runs : List Run) (segs : List (List T)) (s : σ),
    runs.length ≤ fuel → Rep pre.length runs segs → (∀ seg ∈ segs, Srt seg) →
    let o := collapseLoop is_less fuel (pre ++ segs.flatten) runs s
    ∃ w, o.1 = pre ++ w ∧ Sim segs.flatten w ∧ Raised is_less o.2.2.2 ∧
      (o.2.2.2 = .ok () → ∃ segs', w = segs'.flatten ∧ Rep pre.length o.2.1 segs' ∧ (∀ seg ∈ segs', Srt seg) ∧
        collapse o.2.1 = none) := by
  intro fuel
  induction fuel with
  | zero =>
    intro runs segs s hf hrep hs
    have : runs = [] := List.length_eq_zero_iff.mp (by omega)
    subst this
    exact ⟨segs.flatten, rfl, adm.refl _, .inl rfl, fun _ => ⟨segs, rfl, hrep, hs, rfl⟩⟩
  | succ fuel ih =>
    intro runs segs s hf hrep hs
    unfold collapseLoop
    rcases hc : collapse runs with _ | b
    · exact ⟨segs.flatten, rfl, adm.refl _, .inl rfl, fun _ => ⟨segs, rfl, hrep, hs, hc⟩⟩
    match b, runs, segs, hrep, hf, hs, hc with
    | b, [], segs, hrep, hf, hs, hc => simp [collapse] at hc
    | b, [r], segs, hrep, hf, hs, hc => simp [collapse] at hc
    | false, left :: right :: rest, A :: B :: segs, hrep, hf, hs, hc =>
      obtain ⟨a1, a2, a3, a4, a5⟩ := hrep
      dsimp only
      have e : pre ++ (A :: B :: segs).flatten = pre ++ (A ++ B) ++ segs.flatten := by simp
      have hm := merge_inv adm A B s (hs A (by simp)) (hs B (by simp))
      rw [e, onSlice_mid _ pre (A ++ B) segs.flatten left.start (right.start + right.len) a1
        (by simp; omega), a2]
      have hlen := merge_length is_less A B s
      rcases hme : merge is_less (A ++ B) A.length s with ⟨w, s', r⟩
      rw [hme] at hm hlen
      dsimp only at hm hlen ⊢
      have hsim : Sim (A :: B :: segs).flatten (w ++ segs.flatten) := by
        have e' : (A :: B :: segs).flatten = (A ++ B) ++ segs.flatten := by simp
        rw [e']
        exact adm.app _ _ _ _ hm.1 (adm.refl _)
      rcases r with er | ⟨⟩
      · exact ⟨w ++ segs.flatten, by simp, hsim, hm.2.2, fun h => by simp at h⟩
      · have := ih (⟨left.start, A.length + right.len⟩ :: rest) (w :: segs) s' (by simp at hf ⊢; omega)
          ⟨a1, by simp [hlen, a4], by rw [hlen]; simpa [Nat.add_assoc] using a5⟩
          (by intro seg h; rcases List.mem_cons.mp h with rfl | h
              · exact hm.2.1 rfl
              · exact hs seg (by simp [h]))
        obtain ⟨w', h1, h2, h3, h4⟩ := this
        have e2 : pre ++ w ++ segs.flatten = pre ++ (w :: segs).flatten := by simp
        rw [e2]
        exact ⟨w', h1, adm.trans _ _ _ hsim (by simpa using h2), h3, h4⟩
    | true, left :: right :: [], segs, hrep, hf, hs, hc =>
      simp only [collapse] at hc
      split at hc <;> simp at hc
    | true, top :: left :: right :: rest, C :: A :: B :: segs, hrep, hf, hs, hc =>
      obtain ⟨c1, c2, a1, a2, a3, a4, a5⟩ := hrep
      dsimp only
      have e : pre ++ (C :: A :: B :: segs).flatten = (pre ++ C) ++ (A ++ B) ++ segs.flatten := by simp
      have hm := merge_inv adm A B s (hs A (by simp)) (hs B (by simp))
      rw [e, onSlice_mid _ (pre ++ C) (A ++ B) segs.flatten left.start (right.start + right.len) (by simp [a1])
        (by simp; omega), a2]
      have hlen := merge_length is_less A B s
      rcases hme : merge is_less (A ++ B) A.length s with ⟨w, s', r⟩
      rw [hme] at hm hlen
      dsimp only at hm hlen ⊢
      have hsim : Sim (C :: A :: B :: segs).flatten (C ++ (w ++ segs.flatten)) := by
        have e' : (C :: A :: B :: segs).flatten = C ++ ((A ++ B) ++ segs.flatten) := by simp
        rw [e']
        exact adm.app _ _ _ _ (adm.refl _) (adm.app _ _ _ _ hm.1 (adm.refl _))
      rcases r with er | ⟨⟩
      · exact ⟨C ++ (w ++ segs.flatten), by simp, hsim, hm.2.2, fun h => by simp at h⟩
      · have := ih (top :: ⟨left.start, A.length + right.len⟩ :: rest) (C :: w :: segs) s' (by simp at hf ⊢; omega)
          ⟨c1, c2, a1, by simp [hlen, a4], by rw [hlen]; simpa [Nat.add_assoc] using a5⟩
          (by intro seg h
              rcases List.mem_cons.mp h with rfl | h
              · exact hs _ (by simp)
              rcases List.mem_cons.mp h with rfl | h
              · exact hm.2.1 rfl
              · exact hs seg (by simp [h]))
        obtain ⟨w', h1, h2, h3, h4⟩ := this
        have e2 : pre ++ C ++ w ++ segs.flatten = pre ++ (C :: w :: segs).flatten := by simp
        rw [e2]
        exact ⟨w', h1, adm.trans _ _ _ hsim (by simpa using h2), h3, h4⟩
    | b, _ :: _ :: _, [], hrep, _, _, _ => exact absurd hrep (by simp [Rep])
    | b, _ :: _ :: _, [_], hrep, _, _, _ => exact absurd hrep (by simp [Rep])
    | b, _ :: _ :: _ :: _, [_, _], hrep, _, _, _ => exact absurd hrep (by simp [Rep])

theorem mainLoop_inv : ∀ (fuel : Nat) (pre : List T) (runs : List Run) (segs : List (List T)) (s : σ),
    pre.length ≤ fuel → Rep pre.length runs segs → (∀ seg ∈ segs, Srt seg) → collapse runs = none →
    let o := mainLoop is_less fuel (pre ++ segs.flatten) runs pre.length s
    Sim (pre ++ segs.flatten) o.1 ∧ Raised is_less o.2.2.2 ∧ (o.2.2.2 = .ok () → Srt o.1) := by
  intro fuel
  induction fuel with
  | zero =>
    intro pre runs segs s hf hrep hs hc
    have : pre = [] := List.length_eq_zero_iff.mp (by omega)
    subst this
    refine ⟨adm.refl _, .inl rfl, fun _ => ?_⟩
    match runs, segs, hrep with
    | [], [], _ => simpa [mainLoop] using adm.nil
    | [r], [seg], _ => simpa [mainLoop] using hs seg (by simp)
    | r1 :: r2 :: rest, seg1 :: segs, hrep =>
      have h0 : r1.start = 0 := hrep.1
      simp only [collapse, h0, true_or, if_true] at hc
      split at hc <;> (try split at hc) <;> simp at hc
    | [], _ :: _, h => exact h.elim
    | _ :: _, [], h => exact h.elim
    | [r], [a, b], h => exact absurd h (by simp [Rep])
    | [r], a :: b :: c :: d, h => exact absurd h (by simp [Rep])
  | succ fuel ih =>
    intro pre runs segs s hf hrep hs hc
    dsimp only
    rw [mainLoop]
    by_cases hp : pre = []
    · subst hp
      simp only [List.length_nil, gt_iff_lt, Nat.lt_irrefl, if_false]
      refine ⟨adm.refl _, .inl rfl, fun _ => ?_⟩
      match runs, segs, hrep with
      | [], [], _ => simpa using adm.nil
      | [r], [seg], _ => simpa using hs seg (by simp)
      | r1 :: r2 :: rest, seg1 :: segs, hrep =>
        have h0 : r1.start = 0 := hrep.1
        simp only [collapse, h0, true_or, if_true] at hc
        split at hc <;> (try split at hc) <;> simp at hc
      | [], _ :: _, h => exact h.elim
      | _ :: _, [], h => exact h.elim
      | [r], a :: b :: c, h => exact absurd h (by simp [Rep])
    · have hpos : pre.length > 0 := List.length_pos_iff.mpr hp
      rw [if_pos hpos]
      obtain ⟨p, q, q', f1, f2, f3, f4, f5, f6, f7⟩ := findRun_inv adm pre segs.flatten s hp
      rcases hfr : findRun is_less (pre ++ segs.flatten) pre.length s with ⟨v1, st, s1, r1⟩
      rw [hfr] at f2 f6 f7
      dsimp only at f2 f6 f7 ⊢
      have hsim1 : Sim (pre ++ segs.flatten) (p ++ q' ++ segs.flatten) := by
        rw [f1]
        exact adm.app _ _ _ _ (adm.app _ _ _ _ (adm.refl _) f3) (adm.refl _)
      rcases r1 with er | ⟨⟩
      · dsimp only
        rw [f2]
        exact ⟨hsim1, f7, fun h => by simp at h⟩
      · dsimp only
        obtain ⟨hq', hst⟩ := f6 rfl
        subst hst
        have hlen : p.length + q'.length = pre.length := by rw [f1, ← f5]; simp
        rw [f2]
        obtain ⟨p2, m, q2, g1, g2, g3, g4, g5, g6⟩ := growRun_inv adm segs.flatten pre.length p.length p q' s1 rfl hlen hq'
        rcases hgr : growRun is_less pre.length p.length (p ++ q' ++ segs.flatten) s1 with ⟨v2, st, s2, r2⟩
        rw [hgr] at g2 g5 g6
        dsimp only at g2 g5 g6 ⊢
        have hsim2 : Sim (p ++ q' ++ segs.flatten) (p2 ++ q2 ++ segs.flatten) := by
          rw [g1, List.append_assoc p2]
          exact adm.app _ _ _ _ (adm.app _ _ _ _ (adm.refl _) g3) (adm.refl _)
        rcases r2 with er | ⟨⟩
        · dsimp only
          rw [g2]
          exact ⟨adm.trans _ _ _ hsim1 hsim2, g6, fun h => by simp at h⟩
        · dsimp only
          obtain ⟨hq2, hst⟩ := g5 rfl
          subst hst
          have hlen2 : p2.length + q2.length = pre.length := by
            rw [← hlen, g4, g1]; simp; omega
          have e : v2 = p2 ++ (q2 :: segs).flatten := by rw [g2]; simp
          rw [e]
          have hcl := collapseLoop_inv adm p2 (⟨p2.length, pre.length - p2.length⟩ :: runs : List Run).length
            (⟨p2.length, pre.length - p2.length⟩ :: runs) (q2 :: segs) s2 (Nat.le_refl _)
            ⟨rfl, by simp; omega, by rw [hlen2]; exact hrep⟩
            (by intro seg h; rcases List.mem_cons.mp h with rfl | h
                · exact hq2
                · exact hs seg h)
          obtain ⟨w, h1, h2, h3, h4⟩ := hcl
          rcases hcr : collapseLoop is_less (⟨p2.length, pre.length - p2.length⟩ :: runs : List Run).length
            (p2 ++ (q2 :: segs).flatten) (⟨p2.length, pre.length - p2.length⟩ :: runs) s2 with ⟨v3, runs3, s3, r3⟩
          rw [hcr] at h1 h3 h4
          dsimp only at h1 h3 h4 ⊢
          have hsim3 : Sim (pre ++ segs.flatten) (p2 ++ w) := by
            refine adm.trans _ _ _ hsim1 (adm.trans _ _ _ hsim2 ?_)
            rw [List.append_assoc]
            exact adm.app _ _ _ _ (adm.refl _) (by simpa using h2)
          rcases r3 with er | ⟨⟩
          · dsimp only
            rw [h1]
            exact ⟨hsim3, h3, fun h => by simp at h⟩
          · dsimp only
            obtain ⟨segs', k1, k2, k3, k4⟩ := h4 rfl
            have hlt : p2.length ≤ fuel := by
              have : 0 < q.length := List.length_pos_iff.mpr f4
              have : q2.length = m.length + q'.length := g4
              omega
            have := ih p2 runs3 segs' s3 hlt k2 k3 k4
            subst k1
            rw [h1]
            exact ⟨adm.trans _ _ _ hsim3 this.1, this.2.1, this.2.2⟩

theorem merge_sort_inv (v : List T) (s : σ) :
    Sim v (merge_sort is_less v s).1 ∧ Raised is_less (merge_sort is_less v s).2.2 ∧
    ((merge_sort is_less v s).2.2 = .ok () → Srt (merge_sort is_less v s).1) := by
  rw [merge_sort]
  dsimp only
  split
  · split
    · rename_i h1 h2
      rcases List.eq_nil_or_concat v with rfl | ⟨p, a, rfl⟩
      · simp at h2
      · have := insertionSort_inv adm ((p.concat a).length - 1) p [a] s (by simp) (adm.single a)
        simp only [List.concat_eq_append] at this ⊢
        exact ⟨this.1, this.2.2, this.2.1⟩
    · rename_i h1 h2
      refine ⟨adm.refl _, .inl rfl, fun _ => ?_⟩
      match v, h2 with
      | [], _ => exact adm.nil
      | [a], _ => exact adm.single a
      | a :: b :: c, h => simp at h
  · have := mainLoop_inv adm v.length v [] [] s (Nat.le_refl _) trivial (by simp) rfl
    simp only [List.flatten_nil, List.append_nil] at this
    exact this

end
end Verif.Sort
