import Verif.Args.Lemmas
import Mathlib.Tactic.SplitIfs
/-! # The slots written by the argument code -/
namespace Verif.Args

/-- the slots after the positional arguments have been distributed, before keyword slots are cleared -/
def distributed (req opt post lvars : Nat) (rest : Bool) (l : List Val) : List Val :=
  l.take (min (l.length - post) (req + opt))
    ++ List.replicate (req - (l.length - post)) .nil
    ++ List.replicate (req + opt - max (l.length - post) req) .uninit
    ++ (if rest then [.array ((l.drop (req + opt)).take (l.length - post - (req + opt)))] else [])
    ++ l.drop (l.length - post)
    ++ List.replicate (lvars - (req + opt + (if rest then 1 else 0) + post)) .nil

theorem distributed_length {req opt post lvars : Nat} {rest : Bool} {l : List Val}
    (hp : post ≤ l.length) (hl : req + opt + (if rest then 1 else 0) + post ≤ lvars) :
    (distributed req opt post lvars rest l).length = lvars := by
  simp only [distributed, List.length_append, List.length_take, List.length_replicate,
    List.length_drop]
  cases rest <;> simp at hl ⊢ <;> omega

theorem distributed_get {req opt post lvars : Nat} {rest : Bool} {l : List Val}
    (hp : post ≤ l.length) (hl : req + opt + (if rest then 1 else 0) + post ≤ lvars) (i : Nat) :
    (distributed req opt post lvars rest l)[i]? =
      if i < req then (if i + post < l.length then l[i]? else some .nil)
      else if i < req + opt then (if i + post < l.length then l[i]? else some .uninit)
      else if i < req + opt + (if rest then 1 else 0) then
        some (.array ((l.drop (req + opt)).take (l.length - post - (req + opt))))
      else if i < req + opt + (if rest then 1 else 0) + post then
        l[l.length - post + (i - (req + opt + (if rest then 1 else 0)))]?
      else if i < lvars then some .nil else none := by
  simp only [distributed]
  generalize hA : l.take (min (l.length - post) (req + opt)) = A
  have hAl : A.length = min (l.length - post) (req + opt) := by
    rw [← hA, List.length_take]; omega
  have hAg : ∀ i, i < A.length → A[i]? = l[i]? := by
    intro i hi
    rw [← hA, List.getElem?_take, if_pos (by omega)]
  clear hA
  generalize hB : (if rest then [Val.array ((l.drop (req + opt)).take (l.length - post - (req + opt)))] else []) = B
  have hBl : B.length = if rest then 1 else 0 := by rw [← hB]; cases rest <;> rfl
  have hBg : rest = true → B[0]? = some (.array ((l.drop (req + opt)).take (l.length - post - (req + opt)))) := by
    intro h; rw [← hB, h]; rfl
  clear hB
  generalize hr : (if rest then 1 else 0) = r at *
  simp only [List.getElem?_append, List.length_append, List.length_replicate, List.length_drop,
    List.getElem?_replicate, List.getElem?_drop]
  rw [hAl, hBl]
  rw [hAl] at hAg
  by_cases h1 : i < req
  · rw [if_pos h1]
    by_cases h2 : i + post < l.length
    · rw [if_pos h2, if_pos (by omega), if_pos (by omega), if_pos (by omega), if_pos (by omega),
        if_pos (by omega), hAg i (by omega)]
    · rw [if_neg h2, if_pos (by omega), if_pos (by omega), if_pos (by omega), if_pos (by omega),
        if_neg (by omega), if_pos (by omega)]
  · rw [if_neg h1]
    by_cases h3 : i < req + opt
    · rw [if_pos h3]
      by_cases h2 : i + post < l.length
      · rw [if_pos h2, if_pos (by omega), if_pos (by omega), if_pos (by omega), if_pos (by omega),
          if_pos (by omega), hAg i (by omega)]
      · rw [if_neg h2, if_pos (by omega), if_pos (by omega), if_pos (by omega), if_neg (by omega),
          if_pos (by omega)]
    · rw [if_neg h3]
      by_cases h4 : i < req + opt + r
      · rw [if_pos h4, if_pos (by omega), if_pos (by omega), if_neg (by omega)]
        have : i - (min (l.length - post) (req + opt) + (req - (l.length - post)) +
          (req + opt - max (l.length - post) req)) = 0 := by
          cases rest <;> simp at hr <;> omega
        rw [this]
        exact hBg (by cases rest <;> simp at hr ⊢; omega)
      · rw [if_neg h4]
        by_cases h5 : i < req + opt + r + post
        · rw [if_pos h5, if_pos (by omega), if_neg (by omega)]
          congr 1; omega
        · rw [if_neg h5, if_neg (by omega)]
          by_cases h6 : i < lvars
          · rw [if_pos h6, if_pos (by omega)]
          · rw [if_neg h6, if_neg (by omega)]

theorem write_ok {l : List Val} {i : Nat} {v : Val} (h : i < l.length) :
    write l i v = .ok (l.set i v) := by simp [write, h]

theorem set_get {l : List Val} {i : Nat} {v : Val} (h : i < l.length) (j : Nat) :
    (l.set i v)[j]? = if j = i then some v else l[j]? := by
  rw [List.getElem?_set]
  by_cases e : i = j
  · subst e; simp [h]
  · rw [if_neg e, if_neg (fun h => e h.symm)]

theorem fill_ok {l : List Val} {a b : Nat} {v : Val} (h1 : a ≤ b) (h2 : b ≤ l.length) :
    ∃ r, fill l a b v = .ok r ∧ r.length = l.length ∧
      ∀ i : Nat, r[i]? = if a ≤ i ∧ i < b then some v else l[i]? := by
  refine ⟨l.take a ++ List.replicate (b - a) v ++ l.drop b, by simp [fill, h1, h2], ?_, ?_⟩
  · simp; omega
  · intro i
    simp only [List.getElem?_append, List.length_append, List.length_replicate, List.length_take,
      List.getElem?_replicate, List.getElem?_drop, List.getElem?_take]
    have : min a l.length = a := by omega
    rw [this]
    by_cases c1 : i < a
    · rw [if_pos (by omega), if_pos c1, if_pos c1, if_neg (by omega)]
    · by_cases c2 : i < b
      · rw [if_pos (by omega), if_neg c1, if_pos (by omega), if_pos (by omega)]
      · rw [if_neg (by omega), if_neg (by omega)]; congr 1; omega

theorem copyWithin_ok {l : List Val} {a b dest : Nat} (h1 : a ≤ b) (h2 : b ≤ l.length)
    (h3 : dest + (b - a) ≤ l.length) :
    ∃ r, copyWithin l a b dest = .ok r ∧ r.length = l.length ∧
      ∀ i : Nat, r[i]? = if dest ≤ i ∧ i < dest + (b - a) then l[a + (i - dest)]? else l[i]? := by
  refine ⟨_, by simp only [copyWithin, h1, h2, h3, and_self, if_true]; rfl, ?_, ?_⟩
  · simp; omega
  · intro i
    simp only [List.getElem?_append, List.length_append, List.length_take, List.length_drop,
      List.getElem?_drop, List.getElem?_take]
    have e1 : min dest l.length = dest := by omega
    have e2 : min (b - a) (l.length - a) = b - a := by omega
    rw [e1, e2]
    by_cases c1 : i < dest
    · rw [if_pos (by omega), if_pos c1, if_pos c1, if_neg (by omega)]
    · by_cases c2 : i < dest + (b - a)
      · rw [if_pos (by omega), if_neg c1, if_pos (by omega), if_pos (by omega)]
      · rw [if_neg (by omega), if_neg (by omega)]; congr 1; omega

theorem resizeTo_length (l : List Val) (n : Nat) : (resizeTo l n).length = n := by
  simp only [resizeTo, List.length_append, List.length_take, List.length_replicate]; omega

theorem resizeTo_get (l : List Val) (n i : Nat) : (resizeTo l n)[i]? =
    if i < n then (if i < l.length then l[i]? else some .nil) else none := by
  simp only [resizeTo, List.getElem?_append, List.length_take, List.getElem?_take,
    List.getElem?_replicate]
  by_cases c1 : i < n
  · by_cases c2 : i < l.length
    · rw [if_pos (by omega), if_pos c1, if_pos c1, if_pos c2]
    · rw [if_neg (by omega), if_pos (by omega), if_pos c1, if_neg c2]
  · by_cases c2 : i < l.length
    · rw [if_neg (by omega), if_neg (by omega), if_neg c1]
    · rw [if_neg (by omega), if_neg (by omega), if_neg c1]

set_option maxHeartbeats 1000000 in
theorem fillPositional_eq (c : Code) (l : List Val) (hd : c.params.delegate = none)
    (hp : c.params.post ≤ l.length)
    (hl : c.params.req + c.params.opt + (if c.params.rest = some true then 1 else 0) + c.params.post
      ≤ c.lvars) :
    fillPositional c l =
      clearKw (distributed c.params.req c.params.opt c.params.post c.lvars
        (decide (c.params.rest = some true)) l) c.lvar.kw := by
  obtain ⟨⟨req, opt, rest, post, block, keyword, kwrest, delegate⟩, lvar, lvars, optFlag, mul⟩ := c
  simp only at hd hp hl
  subst hd
  unfold fillPositional
  simp only [Nat.not_lt.mpr hp, if_false, Option.isSome_none, Bool.false_eq_true]
  have hres := resizeTo_length l lvars
  have hget := resizeTo_get l lvars
  generalize resizeTo l lvars = L at hres hget
  have hget0 : ∀ i : Nat, i < lvars → l.length ≤ i → L[i]? = some .nil := by
    intro i h1 h2; rw [hget, if_pos h1, if_neg (by omega)]
  have hget1 : ∀ i : Nat, i < lvars → i < l.length → L[i]? = l[i]? := by
    intro i h1 h2; rw [hget, if_pos h1, if_pos h2]
  have hget2 : ∀ i : Nat, lvars ≤ i → L[i]? = none := by
    intro i h1; rw [hget, if_neg (by omega)]
  clear hget
  by_cases hr : rest = some true
  · subst hr
    simp only [if_true, decide_true] at hl ⊢
    by_cases hc : req + opt < l.length - post
    · simp only [if_pos hc, bind, Except.bind]
      rw [write_ok (by omega)]
      have hs := fun v => set_get (l := l) (i := req + opt) (v := v) (by omega)
      have hsl := fun v => List.length_set (as := l) (i := req + opt) (a := v)
      generalize hw : (l.drop (req + opt)).take (l.length - post - (req + opt)) = w
      replace hs := hs (.array w)
      replace hsl := hsl (.array w)
      generalize l.set (req + opt) (.array w) = l1 at hs hsl
      simp only
      obtain ⟨l2, e2, hl2, hg2⟩ := copyWithin_ok (l := l1) (a := l.length - post) (b := l.length)
        (dest := req + opt + 1) (by omega) (by omega) (by omega)
      rw [e2]
      simp only [Nat.add_zero]
      rw [if_pos (by omega)]
      show clearKw _ _ = _
      congr 1
      apply List.ext_getElem?
      intro i
      rw [distributed_get hp (by simpa using hl), resizeTo_get, hw]
      simp only [if_true, List.length_take, hl2, hsl, List.getElem?_take, hg2, hs]
      split_ifs <;> first | rfl | omega
    · simp only [if_neg hc, bind, Except.bind]
      have hw : (l.drop (req + opt)).take (l.length - post - (req + opt)) = [] := by
        have : l.length - post - (req + opt) = 0 := by omega
        rw [this]; rfl
      obtain ⟨l2, e2, hl2, hg2⟩ := copyWithin_ok (l := L) (a := l.length - post) (b := l.length)
        (dest := req + opt + 1) (by omega) (by omega) (by omega)
      rw [e2]
      simp only
      by_cases hq : l.length - post < req
      · simp only [if_pos hq]
        obtain ⟨l3, e3, hl3, hg3⟩ := fill_ok (l := l2) (a := l.length - post) (b := req) (v := .nil)
          (by omega) (by omega)
        rw [e3]
        simp only
        obtain ⟨l4, e4, hl4, hg4⟩ := fill_ok (l := l3) (a := req) (b := req + opt) (v := .uninit)
          (by omega) (by omega)
        rw [e4]
        simp only
        rw [write_ok (by omega)]
        simp only
        congr 1
        apply List.ext_getElem?
        intro i
        rw [distributed_get hp (by simpa using hl), set_get (by omega), hw]
        simp only [if_true, hg4, hg3, hg2]
        split_ifs <;> first
          | rfl | omega | (rw [hget1 _ (by omega) (by omega)])
          | (rw [hget0 _ (by omega) (by omega)]) | (rw [hget2 _ (by omega)])
      · simp only [if_neg hq]
        obtain ⟨l3, e3, hl3, hg3⟩ := fill_ok (l := l2) (a := l.length - post) (b := req + opt)
          (v := .uninit) (by omega) (by omega)
        rw [e3]
        simp only
        rw [write_ok (by omega)]
        simp only
        congr 1
        apply List.ext_getElem?
        intro i
        rw [distributed_get hp (by simpa using hl), set_get (by omega), hw]
        simp only [if_true, hg3, hg2]
        split_ifs <;> first
          | rfl | omega | (rw [hget1 _ (by omega) (by omega)])
          | (rw [hget0 _ (by omega) (by omega)]) | (rw [hget2 _ (by omega)])
  · simp only [if_neg hr, decide_eq_false hr] at hl ⊢
    by_cases hc : req + opt < l.length - post
    · simp only [if_pos hc, bind, Except.bind, Nat.zero_ne_one, if_false]
      obtain ⟨l2, e2, hl2, hg2⟩ := copyWithin_ok (l := l) (a := l.length - post) (b := l.length)
        (dest := req + opt + 0) (by omega) (by omega) (by omega)
      rw [e2]
      simp only [Nat.add_zero]
      rw [if_pos (by omega)]
      show clearKw _ _ = _
      congr 1
      apply List.ext_getElem?
      intro i
      rw [distributed_get hp (by simpa using hl), resizeTo_get]
      simp only [Bool.false_eq_true, if_false, List.length_take, hl2, List.getElem?_take, hg2]
      split_ifs <;> first | rfl | omega
    · simp only [if_neg hc, bind, Except.bind, Nat.zero_ne_one, if_false]
      obtain ⟨l2, e2, hl2, hg2⟩ := copyWithin_ok (l := L) (a := l.length - post) (b := l.length)
        (dest := req + opt + 0) (by omega) (by omega) (by omega)
      rw [e2]
      simp only
      by_cases hq : l.length - post < req
      · simp only [if_pos hq]
        obtain ⟨l3, e3, hl3, hg3⟩ := fill_ok (l := l2) (a := l.length - post) (b := req) (v := .nil)
          (by omega) (by omega)
        rw [e3]
        simp only
        obtain ⟨l4, e4, hl4, hg4⟩ := fill_ok (l := l3) (a := req) (b := req + opt) (v := .uninit)
          (by omega) (by omega)
        rw [e4]
        simp only
        congr 1
        apply List.ext_getElem?
        intro i
        rw [distributed_get hp (by simpa using hl)]
        simp only [Bool.false_eq_true, if_false, hg4, hg3, hg2]
        split_ifs <;> first
          | rfl | omega | (rw [hget1 _ (by omega) (by omega)])
          | (rw [hget0 _ (by omega) (by omega)]) | (rw [hget2 _ (by omega)])
      · simp only [if_neg hq]
        obtain ⟨l3, e3, hl3, hg3⟩ := fill_ok (l := l2) (a := l.length - post) (b := req + opt)
          (v := .uninit) (by omega) (by omega)
        rw [e3]
        simp only
        congr 1
        apply List.ext_getElem?
        intro i
        rw [distributed_get hp (by simpa using hl)]
        simp only [Bool.false_eq_true, if_false, hg3, hg2]
        split_ifs <;> first
          | rfl | omega | (rw [hget1 _ (by omega) (by omega)])
          | (rw [hget0 _ (by omega) (by omega)]) | (rw [hget2 _ (by omega)])

end Verif.Args
