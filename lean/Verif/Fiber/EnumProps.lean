import Verif.Fiber.Enum
/-!
# Enumerator#each, #map and #with_index visit the whole sequence (C45)
-/
namespace Verif.Fiber.Enum

variable {I G V E W : Type}

/-- From `g` on, whatever happens to the world in between, the iteration gives `xs` and then raises `last`. -/
inductive Gives (S : Source I G V E W) (last : E) : G → List V → Prop
  | more {g x xs} (h : ∀ w, (S.resume g w).1 = .ok x) (t : ∀ w, Gives S last (S.resume g w).2.1 xs) :
      Gives S last g (x :: xs)
  | stop {g} (h : ∀ w, (S.resume g w).1 = .err last) : Gives S last g []

/-- What happened in a call over the elements `xs` (each passed to the block as the corresponding element of `as`):
`calls` are the calls of the block with their results, `out` says whether an exception came out. -/
inductive Visited {A : Type} (last : E) (stop : Bool) (as : List A) : Option E → List (A × Res V E) → Prop
  /-- the block was called with every element, in order, and the call ended normally -/
  | all (vs : List V) : vs.length = as.length → stop = true →
      Visited last stop as none (as.zip (vs.map .ok))
  /-- the same, but the iteration itself raised at the end -/
  | raised (vs : List V) : vs.length = as.length → stop = false →
      Visited last stop as (some last) (as.zip (vs.map .ok))
  /-- the block raised at one of the elements, and was not called again -/
  | block (as₁ : List A) (a : A) (as₂ : List A) (vs : List V) (e : E) : as = as₁ ++ a :: as₂ →
      vs.length = as₁.length → Visited last stop as (some e) (as₁.zip (vs.map .ok) ++ [(a, .err e)])

theorem Visited.cons {A : Type} {last : E} {stop : Bool} {as : List A} {o : Option E} {cs : List (A × Res V E)}
    (a : A) (v : V) (h : Visited last stop as o cs) : Visited last stop (a :: as) o ((a, .ok v) :: cs) := by
  cases h with
  | all vs h1 h2 => exact .all (v :: vs) (by simp [h1]) h2
  | raised vs h1 h2 => exact .raised (v :: vs) (by simp [h1]) h2
  | block as₁ b as₂ vs e h1 h2 => exact .block (a :: as₁) b as₂ (v :: vs) e (by simp [h1]) (by simp [h2])

theorem eachLoop_visited (S : Source I G V E W) (f : Block V V E W) (last : E) (xs : List V) :
    ∀ (g : G) (w : W) (calls : List (V × Res V E)) (n : Nat), Gives S last g xs → xs.length < n →
      ∃ o cs w', eachLoop S f n g w calls = some (o, calls ++ cs, w') ∧ Visited last (S.is_stop last) xs o cs := by
  induction xs with
  | nil =>
    intro g w calls n h hn
    obtain ⟨n, rfl⟩ := Nat.exists_eq_add_one_of_ne_zero (by simp at hn; omega : n ≠ 0)
    cases h with
    | stop h =>
      unfold eachLoop
      have := h w
      rcases hr : S.resume g w with ⟨r, g', w'⟩
      rw [hr] at this
      simp only at this
      subst this
      simp only
      by_cases hs : S.is_stop last = true
      · rw [if_pos hs]
        exact ⟨none, [], w', by simp, .all [] rfl hs⟩
      · rw [if_neg hs]
        exact ⟨some last, [], w', by simp, .raised [] rfl (by simpa using hs)⟩
  | cons x xs ih =>
    intro g w calls n h hn
    obtain ⟨n, rfl⟩ := Nat.exists_eq_add_one_of_ne_zero (by simp at hn; omega : n ≠ 0)
    cases h with
    | more h t =>
      unfold eachLoop
      have h1 := h w
      have h2 := t w
      rcases hr : S.resume g w with ⟨r, g', w'⟩
      rw [hr] at h1 h2
      simp only at h1 h2
      subst h1
      simp only
      rcases hf : f x w' with ⟨b | e, w2⟩
      · simp only
        obtain ⟨o, cs, w3, h3, h4⟩ := ih g' w2 (calls ++ [(x, .ok b)]) n h2 (by simpa using hn)
        exact ⟨o, (x, .ok b) :: cs, w3, by rw [h3]; simp, h4.cons x b⟩
      · simp only
        exact ⟨some e, [(x, .err e)], w2, rfl, .block [] x xs [] e rfl rfl⟩

/-- The same walk for `map`, with the values collected. -/
theorem mapLoop_visited (S : Source I G V E W) (f : Block V V E W) (last : E) (xs : List V) :
    ∀ (g : G) (w : W) (temp : List V) (calls : List (V × Res V E)) (n : Nat), Gives S last g xs → xs.length < n →
      ∃ o cs w', mapLoop S f n g w temp calls = some (o, calls ++ cs, w') ∧
        ((∃ vs, o = .ok (temp ++ vs) ∧ cs = xs.zip (vs.map .ok) ∧ vs.length = xs.length ∧ S.is_stop last = true) ∨
         (∃ e, o = .err e ∧ Visited last (S.is_stop last) xs (some e) cs)) := by
  induction xs with
  | nil =>
    intro g w temp calls n h hn
    obtain ⟨n, rfl⟩ := Nat.exists_eq_add_one_of_ne_zero (by simp at hn; omega : n ≠ 0)
    cases h with
    | stop h =>
      unfold mapLoop
      have := h w
      rcases hr : S.resume g w with ⟨r, g', w'⟩
      rw [hr] at this
      simp only at this
      subst this
      simp only
      by_cases hs : S.is_stop last = true
      · rw [if_pos hs]
        exact ⟨.ok temp, [], w', by simp, Or.inl ⟨[], by simp, rfl, rfl, hs⟩⟩
      · rw [if_neg hs]
        exact ⟨_, [], w', by simp, Or.inr ⟨last, rfl, .raised [] rfl (by simpa using hs)⟩⟩
  | cons x xs ih =>
    intro g w temp calls n h hn
    obtain ⟨n, rfl⟩ := Nat.exists_eq_add_one_of_ne_zero (by simp at hn; omega : n ≠ 0)
    cases h with
    | more h t =>
      unfold mapLoop
      have h1 := h w
      have h2 := t w
      rcases hr : S.resume g w with ⟨r, g', w'⟩
      rw [hr] at h1 h2
      simp only at h1 h2
      subst h1
      simp only
      rcases hf : f x w' with ⟨b | e, w2⟩
      · simp only
        obtain ⟨o, cs, w3, h3, h4⟩ := ih g' w2 (temp ++ [b]) (calls ++ [(x, .ok b)]) n h2 (by simpa using hn)
        refine ⟨o, (x, .ok b) :: cs, w3, by rw [h3]; simp, ?_⟩
        rcases h4 with ⟨vs, h5, h6, h7, h8⟩ | ⟨e, h5, h6⟩
        · exact Or.inl ⟨b :: vs, by simp [h5], by simp [h6], by simp [h7], h8⟩
        · exact Or.inr ⟨e, h5, h6.cons x b⟩
      · simp only
        exact ⟨_, [(x, .err e)], w2, rfl, Or.inr ⟨e, rfl, .block [] x xs [] e rfl rfl⟩⟩

theorem withIndexLoop_visited (S : Source I G V E W) (f : Block (V × Nat) V E W) (last : E) (xs : List V) :
    ∀ (g : G) (w : W) (c : Nat) (temp : List V) (calls : List ((V × Nat) × Res V E)) (n : Nat), Gives S last g xs →
      xs.length < n →
      ∃ o cs w', withIndexLoop S f n g w c temp calls = some (o, calls ++ cs, w') ∧
        ((∃ vs, o = .ok (temp ++ vs) ∧ cs = (xs.zipIdx c).zip (vs.map .ok) ∧ vs.length = xs.length ∧
            S.is_stop last = true) ∨
         (∃ e, o = .err e ∧ Visited last (S.is_stop last) (xs.zipIdx c) (some e) cs)) := by
  induction xs with
  | nil =>
    intro g w c temp calls n h hn
    obtain ⟨n, rfl⟩ := Nat.exists_eq_add_one_of_ne_zero (by simp at hn; omega : n ≠ 0)
    cases h with
    | stop h =>
      unfold withIndexLoop
      have := h w
      rcases hr : S.resume g w with ⟨r, g', w'⟩
      rw [hr] at this
      simp only at this
      subst this
      simp only
      by_cases hs : S.is_stop last = true
      · rw [if_pos hs]
        exact ⟨.ok temp, [], w', by simp, Or.inl ⟨[], by simp, rfl, rfl, hs⟩⟩
      · rw [if_neg hs]
        exact ⟨_, [], w', by simp, Or.inr ⟨last, rfl, .raised [] rfl (by simpa using hs)⟩⟩
  | cons x xs ih =>
    intro g w c temp calls n h hn
    obtain ⟨n, rfl⟩ := Nat.exists_eq_add_one_of_ne_zero (by simp at hn; omega : n ≠ 0)
    cases h with
    | more h t =>
      unfold withIndexLoop
      have h1 := h w
      have h2 := t w
      rcases hr : S.resume g w with ⟨r, g', w'⟩
      rw [hr] at h1 h2
      simp only at h1 h2
      subst h1
      simp only
      rcases hf : f (x, c) w' with ⟨b | e, w2⟩
      · simp only
        obtain ⟨o, cs, w3, h3, h4⟩ := ih g' w2 (c + 1) (temp ++ [b]) (calls ++ [((x, c), .ok b)]) n h2 (by simpa using hn)
        refine ⟨o, ((x, c), .ok b) :: cs, w3, by rw [h3]; simp, ?_⟩
        rcases h4 with ⟨vs, h5, h6, h7, h8⟩ | ⟨e, h5, h6⟩
        · exact Or.inl ⟨b :: vs, by simp [h5], by simp [h6], by simp [h7], h8⟩
        · exact Or.inr ⟨e, h5, h6.cons (x, c) b⟩
      · simp only
        exact ⟨_, [((x, c), .err e)], w2, rfl, Or.inr ⟨e, rfl, .block [] (x, c) (xs.zipIdx (c + 1)) [] e (by simp) rfl⟩⟩

/-- **C45 (`each`).**  However far `next` has already walked the enumerator, `each` calls the block with every element
of the sequence from the beginning, in order, and then returns the object at the bottom of the chain of
enumerators; if the block raises, it is not called again and the exception comes out. -/
theorem C45_each (S : Source I G V E W) (recv : I → Receiver V) (f : Block V V E W) (e : Enumerator I G) (w : W)
    (last : E) (xs : List V) (h : Gives S last (S.init e.info) xs) (fuel : Nat) (hf : xs.length < fuel) :
    ∃ r cs w', each S recv f fuel e w = some (r, cs, w') ∧
      ((r = .ok (innermost (recv e.info)) ∧ Visited last (S.is_stop last) xs none cs) ∨
       (∃ err, r = .err err ∧ Visited last (S.is_stop last) xs (some err) cs)) := by
  obtain ⟨o, cs, w', h1, h2⟩ := eachLoop_visited S f last xs (S.init e.info) w [] fuel h hf
  unfold each dup_enum
  rw [h1]
  cases o with
  | none => exact ⟨_, _, _, rfl, Or.inl ⟨rfl, h2⟩⟩
  | some err => exact ⟨_, _, _, rfl, Or.inr ⟨err, rfl, h2⟩⟩

/-- **C45 (`map`).**  `map` returns the block's values for all elements, in order. -/
theorem C45_map (S : Source I G V E W) (f : Block V V E W) (e : Enumerator I G) (w : W)
    (last : E) (xs : List V) (h : Gives S last (S.init e.info) xs) (fuel : Nat) (hf : xs.length < fuel) :
    ∃ r cs w', map S f fuel e w = some (r, cs, w') ∧
      ((∃ vs, r = .ok vs ∧ cs = xs.zip (vs.map .ok) ∧ vs.length = xs.length ∧ S.is_stop last = true) ∨
       (∃ err, r = .err err ∧ Visited last (S.is_stop last) xs (some err) cs)) := by
  obtain ⟨o, cs, w', h1, h2⟩ := mapLoop_visited S f last xs (S.init e.info) w [] [] fuel h hf
  exact ⟨o, cs, w', by unfold map dup_enum; rw [h1]; simp, by simpa using h2⟩

/-- **C45 (`with_index`).**  `with_index` calls the block with every element and its position, from 0, and returns
the block's values in order. -/
theorem C45_with_index (S : Source I G V E W) (f : Block (V × Nat) V E W) (e : Enumerator I G) (w : W)
    (last : E) (xs : List V) (h : Gives S last (S.init e.info) xs) (fuel : Nat) (hf : xs.length < fuel) :
    ∃ r cs w', with_index S f fuel e w = some (r, cs, w') ∧
      ((∃ vs, r = .ok vs ∧ cs = xs.zipIdx.zip (vs.map .ok) ∧ vs.length = xs.length ∧ S.is_stop last = true) ∨
       (∃ err, r = .err err ∧ Visited last (S.is_stop last) xs.zipIdx (some err) cs)) := by
  obtain ⟨o, cs, w', h1, h2⟩ := withIndexLoop_visited S f last xs (S.init e.info) w 0 [] [] fuel h hf
  exact ⟨o, cs, w', by unfold with_index dup_enum; rw [h1]; simp, by simpa using h2⟩

/-- `n` calls of `next`. -/
def nexts (S : Source I G V E W) : Nat → Enumerator I G → W → List (Res V E) × Enumerator I G × W
  | 0, e, w => ([], e, w)
  | n + 1, e, w =>
    let (r, e, w) := next S e w
    let (rs, e, w) := nexts S n e w
    (r :: rs, e, w)

/-- **C45 (`next` is external, `each` is internal).**  The first `n ≤ length` calls of `next` give the first `n`
elements, and a call of `each`, `map` or `with_index` on the enumerator then still sees the whole sequence. -/
theorem C45_next_then_each (S : Source I G V E W) (i : I) (last : E) (xs : List V) (h : Gives S last (S.init i) xs)
    (n : Nat) (hn : n ≤ xs.length) (w : W) :
    (nexts S n (create S i) w).1 = (xs.take n).map .ok ∧
    Gives S last (S.init (nexts S n (create S i) w).2.1.info) xs := by
  have key : ∀ (n : Nat) (xs : List V) (e : Enumerator I G) (w : W), Gives S last e.fiber xs → n ≤ xs.length →
      (nexts S n e w).1 = (xs.take n).map .ok ∧ (nexts S n e w).2.1.info = e.info := by
    intro n
    induction n with
    | zero => intro xs e w _ _; exact ⟨rfl, rfl⟩
    | succ n ih =>
      intro xs e w hg hn
      cases hg with
      | stop => simp at hn
      | more h t =>
        rename_i x xs
        have h1 := h w
        have h2 := t w
        unfold nexts next
        rcases hr : S.resume e.fiber w with ⟨r, g', w'⟩
        rw [hr] at h1 h2
        simp only at h1 h2
        subst h1
        simp only
        obtain ⟨h3, h4⟩ := ih xs { e with fiber := g' } w' h2 (by simpa using hn)
        exact ⟨by simp [h3], h4⟩
  obtain ⟨h1, h2⟩ := key n xs (create S i) w h hn
  exact ⟨h1, by rw [h2]; exact h⟩

/-! ## A case that meets the hypotheses -/

/-- the elements of a list -/
def listSource : Source (List Nat) (List Nat) Nat String Nat where
  init := id
  resume g w := match g with
    | [] => (.err "stop", [], w)
    | x :: xs => (.ok x, xs, w + 1)
  is_stop e := e == "stop"

theorem listSource_gives (xs : List Nat) : Gives listSource "stop" xs xs := by
  induction xs with
  | nil => exact .stop (fun _ => rfl)
  | cons x xs ih => exact .more (fun _ => rfl) (fun _ => ih)

example : map listSource (fun v w => (.ok (v * 10 + w), w)) 9 (create listSource [4, 5, 6]) 0 =
    some (.ok [41, 52, 63], [(4, .ok 41), (5, .ok 52), (6, .ok 63)], 3) := by decide +kernel

example : with_index listSource (fun v w => if v.2 = 2 then (.err "boom", w) else (.ok (v.1 + v.2), w)) 9
    (create listSource [4, 5, 6]) 0 =
    some (.err "boom", [((4, 0), .ok 4), ((5, 1), .ok 6), ((6, 2), .err "boom")], 3) := by rfl

end Verif.Fiber.Enum
