import Verif.Args.Bind
/-! # The slots of a new frame -/
namespace Verif.Args

/-- what follows the arity check in a method call, and the expansion of an array in a block call -/
def finish (c : Code) (l : List Val) (kw : KwArg) (blk : Option Nat) : Except Err (List Val) := do
  let noKw := c.params.keyword.isEmpty && !c.params.kwrest
  let l ← fillPositional c l
  let ordinary := !noKw && kw.isSome
  let l ← if c.params.kwrest || ordinary then fillKeyword c l (kw.getD []) else .ok l
  fillBlock c l blk

theorem lookup_slot {s : Sig} (hOk : s.Ok) (hstar : s.starOk) (locals : List Nat) {k i : Nat}
    (h : (s.code locals).params.keyword.lookup k = some i) :
    ∃ j b, s.kw[j]? = some (k, b) ∧ i = s.kwBase + j := by
  have hn : (s.kw.map (·.1)).Nodup := by
    have := hOk.nodup
    simp only [Sig.names, List.append_assoc] at this
    have := (List.nodup_append.mp this).2.1
    have := (List.nodup_append.mp this).2.1
    have := (List.nodup_append.mp this).2.1
    have := (List.nodup_append.mp this).2.1
    exact (List.nodup_append.mp this).1
  have h' : (kwTable [] s.kwPos s.kw).lookup k = some i := h
  obtain ⟨j, b, hj, hi⟩ := kwTable_lookup_some _ _ _ _ hn h'
  have hne : s.kw ≠ [] := by
    intro e; rw [e] at hj; simp at hj
  rw [kwPos_eq hstar hne] at hi
  exact ⟨j, b, hj, hi⟩

theorem kw_nodup {s : Sig} (hOk : s.Ok) : (s.kw.map (·.1)).Nodup := by
  have := hOk.nodup
  simp only [Sig.names, List.append_assoc] at this
  have := (List.nodup_append.mp this).2.1
  have := (List.nodup_append.mp this).2.1
  have := (List.nodup_append.mp this).2.1
  have := (List.nodup_append.mp this).2.1
  exact (List.nodup_append.mp this).1

theorem slot_lookup {s : Sig} (hOk : s.Ok) (hstar : s.starOk) (locals : List Nat) {k j : Nat}
    {b : Bool} (h : s.kw[j]? = some (k, b)) :
    (s.code locals).params.keyword.lookup k = some (s.kwBase + j) := by
  have hne : s.kw ≠ [] := by
    intro e; rw [e] at h; simp at h
  show (kwTable [] s.kwPos s.kw).lookup k = _
  rw [kwTable_lookup _ _ _ _ _ _ (kw_nodup hOk) h, kwPos_eq hstar hne]

theorem lookup_none {s : Sig} (locals : List Nat) {k : Nat} (h : k ∉ s.kw.map (·.1)) :
    (s.code locals).params.keyword.lookup k = none := by
  show (kwTable [] s.kwPos s.kw).lookup k = _
  rw [kwTable_lookup_acc _ _ _ _ h]; rfl

theorem lookup_isSome {s : Sig} (hOk : s.Ok) (hstar : s.starOk) (locals : List Nat) (k : Nat) :
    ((s.code locals).params.keyword.lookup k).isSome = decide (k ∈ s.kw.map (·.1)) := by
  by_cases h : k ∈ s.kw.map (·.1)
  · obtain ⟨⟨k', b⟩, hm, rfl⟩ := List.mem_map.mp h
    obtain ⟨j, hj⟩ := List.getElem?_of_mem hm
    rw [slot_lookup hOk hstar locals hj]
    simp only [Option.isSome_some]
    exact (decide_eq_true h).symm
  · rw [lookup_none locals h]
    simp [h]

theorem kwTable_isEmpty (kw : List (Nat × Bool)) (acc : List (Nat × Nat)) (i : Nat) :
    (kwTable acc i kw).isEmpty = (acc.isEmpty && kw.isEmpty) := by
  induction kw generalizing acc i with
  | nil => simp [kwTable]
  | cons q kw ih => rw [kwTable, ih]; simp

theorem noKw_eq (s : Sig) (locals : List Nat) :
    ((s.code locals).params.keyword.isEmpty && !(s.code locals).params.kwrest) = !s.takesKw := by
  show ((kwTable [] s.kwPos s.kw).isEmpty && !s.kwrest.isSome) = _
  rw [kwTable_isEmpty]
  simp [Sig.takesKw]

/-- the slots written by `finish` -/
structure FrameOf (s : Sig) (locals : List Nat) (l : List Val) (kw : KwArg) (blk : Option Nat)
    (r : List Val) : Prop where
  len : r.length = s.names.length + locals.length
  pos : ∀ i, i < s.kwBase → r[i]? =
    (distributed s.req.length s.opt.length s.post.length (s.code locals).lvars
      (decide ((s.code locals).params.rest = some true)) l)[i]?
  given : ∀ j n b v, s.kw[j]? = some (n, b) → (n, v) ∈ kw.getD [] → r[s.kwBase + j]? = some v
  default : ∀ j n b, s.kw[j]? = some (n, b) → (∀ v, (n, v) ∉ kw.getD []) →
    r[s.kwBase + j]? = some .uninit
  kwrest : s.kwrest.isSome → r[s.kwBase + s.kw.length]? =
    some (.hash ((kw.getD []).filter (fun p => p.1 ∉ s.kw.map (·.1))))
  block : s.block.isSome → r[s.kwBase + s.kw.length + s.kwrest.toList.length]? =
    some (match blk with | some b => .proc b | none => .nil)
  locals : ∀ i, i < locals.length → r[s.names.length + i]? = some .nil

theorem restLen_eq (s : Sig) (locals : List Nat) :
    (if (s.code locals).params.rest = some true then 1 else 0) = s.restLen := by
  show (if s.rest.map Option.isSome = some true then 1 else 0) = _
  simp only [Sig.restLen]
  match s.rest with
  | none => simp
  | some none => simp
  | some (some n) => simp

set_option maxHeartbeats 1000000 in
theorem finish_ok (s : Sig) (hOk : s.Ok) (hstar : s.starOk) (locals : List Nat) (l : List Val)
    (kw : KwArg) (blk : Option Nat) (hpost : s.post.length ≤ l.length)
    (hkw : ((kw.getD []).map (·.1)).Nodup) :
    (s.kwKnown kw → ∃ r, finish (s.code locals) l kw blk = .ok r ∧ FrameOf s locals l kw blk r) ∧
    (¬ s.kwKnown kw → finish (s.code locals) l kw blk = .error .keyword) := by
  have hlv := code_lvars s locals
  have hnl := names_length s
  have hrl := restLen_eq s locals
  have hlt : (s.code locals).params.req + (s.code locals).params.opt +
      (if (s.code locals).params.rest = some true then 1 else 0) + (s.code locals).params.post ≤
      (s.code locals).lvars := by
    rw [hrl, hlv, hnl]
    show s.req.length + s.opt.length + s.restLen + s.post.length ≤ _
    simp only [Sig.kwBase]; omega
  have hltd : s.req.length + s.opt.length +
      (if decide ((s.code locals).params.rest = some true) = true then 1 else 0) + s.post.length ≤
      (s.code locals).lvars := by
    have e : (if decide ((s.code locals).params.rest = some true) = true then 1 else 0) = s.restLen := by
      simpa using hrl
    rw [e, hlv, hnl]
    simp only [Sig.kwBase]; omega
  have hdl : (distributed s.req.length s.opt.length s.post.length (s.code locals).lvars
      (decide ((s.code locals).params.rest = some true)) l).length = (s.code locals).lvars := by
    exact distributed_length hpost hltd
  have hdnil : ∀ i, s.kwBase ≤ i → i < (s.code locals).lvars →
      (distributed s.req.length s.opt.length s.post.length (s.code locals).lvars
      (decide ((s.code locals).params.rest = some true)) l)[i]? = some .nil := by
    intro i h1 h2
    rw [distributed_get hpost hltd]
    have e : (if decide ((s.code locals).params.rest = some true) = true then 1 else 0) = s.restLen := by
      simpa using hrl
    rw [e]
    simp only [Sig.kwBase] at h1
    rw [if_neg (by omega), if_neg (by omega), if_neg (by omega), if_neg (by omega), if_pos h2]
  have e1 : fillPositional (s.code locals) l = clearKw (distributed s.req.length s.opt.length
      s.post.length (s.code locals).lvars (decide ((s.code locals).params.rest = some true)) l)
      ((List.range s.kw.length).map (s.kwBase + ·)) :=
    fillPositional_eq (s.code locals) l rfl hpost hlt
  generalize hdef : distributed s.req.length s.opt.length s.post.length (s.code locals).lvars
      (decide ((s.code locals).params.rest = some true)) l = d at hdl hdnil e1
  obtain ⟨r1, ec, hl1, hg1⟩ := clearKw_ok ((List.range s.kw.length).map (s.kwBase + ·)) d (by
    intro i hi
    simp only [List.mem_map, List.mem_range] at hi
    obtain ⟨j, hj, rfl⟩ := hi
    rw [hdl, hlv, hnl]; omega)
  rw [ec] at e1
  have hmem : ∀ i, i ∈ (List.range s.kw.length).map (s.kwBase + ·) ↔
      s.kwBase ≤ i ∧ i < s.kwBase + s.kw.length := by
    intro i
    simp only [List.mem_map, List.mem_range]
    constructor
    · rintro ⟨j, hj, rfl⟩; omega
    · intro h; exact ⟨i - s.kwBase, by omega, by omega⟩
  have hs : ∀ k i, (s.code locals).params.keyword.lookup k = some i → i < r1.length := by
    intro k i h
    obtain ⟨j, b, hj, rfl⟩ := lookup_slot hOk hstar locals h
    have := (List.getElem?_eq_some_iff.mp hj).1
    rw [hl1, hdl, hlv, hnl]; omega
  have hinj : ∀ k k' i, (s.code locals).params.keyword.lookup k = some i →
      (s.code locals).params.keyword.lookup k' = some i → k = k' := by
    intro k k' i h h'
    obtain ⟨j, b, hj, rfl⟩ := lookup_slot hOk hstar locals h
    obtain ⟨j', b', hj', e⟩ := lookup_slot hOk hstar locals h'
    have : j = j' := by omega
    subst this
    rw [hj] at hj'
    injection hj' with hj'
    injection hj' with hj'
  have hkwr : (s.code locals).params.kwrest = s.kwrest.isSome := rfl
  -- the keyword step, when there is one
  have hkwstep : s.kwKnown kw → ∃ r2,
      (if (s.code locals).params.kwrest || (!!s.takesKw && kw.isSome) then
        fillKeyword (s.code locals) r1 (kw.getD []) else .ok r1) = .ok r2 ∧
      r2.length = r1.length ∧
      (∀ i, i < s.kwBase → r2[i]? = r1[i]?) ∧
      (∀ i, s.kwBase + s.kw.length + s.kwrest.toList.length ≤ i → r2[i]? = r1[i]?) ∧
      (∀ j n b v, s.kw[j]? = some (n, b) → (n, v) ∈ kw.getD [] → r2[s.kwBase + j]? = some v) ∧
      (∀ j n b, s.kw[j]? = some (n, b) → (∀ v, (n, v) ∉ kw.getD []) →
        r2[s.kwBase + j]? = r1[s.kwBase + j]?) ∧
      (s.kwrest.isSome → r2[s.kwBase + s.kw.length]? =
        some (.hash ((kw.getD []).filter (fun p => p.1 ∉ s.kw.map (·.1))))) := by
    intro hknown
    by_cases hcond : (s.code locals).params.kwrest || (!!s.takesKw && kw.isSome)
    · rw [if_pos hcond]
      have htk : s.takesKw = true := by
        simp only [hkwr, Bool.or_eq_true, Bool.and_eq_true, Bool.not_not] at hcond
        rcases hcond with h | h
        · simp [Sig.takesKw, h]
        · exact h.1
      have hkn : Known (s.code locals) (kw.getD []) := by
        rcases hknown with h | h | h
        · rw [htk] at h; cases h
        · exact Or.inl (by rw [hkwr]; exact h)
        · exact Or.inr (fun p hp => by
            rw [lookup_isSome hOk hstar]; exact decide_eq_true (h p hp))
      obtain ⟨r2, e2, hl2, hga, hgb⟩ := fillKwLoop_ok (s.code locals) (kw.getD []) r1 [] hkw hs hinj hkn
      have hfil : ((kw.getD []).filter (fun p => ((s.code locals).params.keyword.lookup p.1).isNone)) =
          (kw.getD []).filter (fun p => p.1 ∉ s.kw.map (·.1)) := by
        apply List.filter_congr
        intro p _
        have := lookup_isSome hOk hstar locals p.1
        cases hq : (s.code locals).params.keyword.lookup p.1 <;> rw [hq] at this <;> simp_all
      rw [List.nil_append, hfil] at e2
      -- slots outside the keyword section are not touched by the loop
      have hout : ∀ i, (i < s.kwBase ∨ s.kwBase + s.kw.length ≤ i) → r2[i]? = r1[i]? := by
        intro i hi
        apply hgb
        intro p _ hp
        obtain ⟨j, b, hj, rfl⟩ := lookup_slot hOk hstar locals hp
        have := (List.getElem?_eq_some_iff.mp hj).1
        omega
      have hin1 : ∀ j n b v, s.kw[j]? = some (n, b) → (n, v) ∈ kw.getD [] →
          r2[s.kwBase + j]? = some v := by
        intro j n b v hj hv
        exact hga n v _ hv (slot_lookup hOk hstar locals hj)
      have hin2 : ∀ j n b, s.kw[j]? = some (n, b) → (∀ v, (n, v) ∉ kw.getD []) →
          r2[s.kwBase + j]? = r1[s.kwBase + j]? := by
        intro j n b hj hv
        apply hgb
        intro p hp hp'
        obtain ⟨j', b', hj', e⟩ := lookup_slot hOk hstar locals hp'
        have : j = j' := by omega
        subst this
        rw [hj] at hj'
        injection hj' with hj'
        injection hj' with hj'
        subst hj'
        exact hv p.2 hp
      unfold fillKeyword
      rw [e2]
      simp only [bind, Except.bind]
      have hkr : (s.code locals).lvar.kwrest = s.kwrest.map (fun _ => s.kwBase + s.kw.length) := rfl
      rw [hkr]
      match hq : s.kwrest with
      | none =>
        refine ⟨r2, rfl, hl2, fun i hi => hout i (Or.inl hi), fun i hi => hout i (Or.inr ?_),
          hin1, hin2, by simp⟩
        simpa using hi
      | some m =>
        have hlt2 : s.kwBase + s.kw.length < r2.length := by
          rw [hl2, hl1, hdl, hlv, hnl, hq]; simp; omega
        refine ⟨_, write_ok hlt2, by simpa using hl2, ?_, ?_, ?_, ?_, ?_⟩
        · intro i hi
          rw [set_get hlt2, if_neg (by omega)]; exact hout i (Or.inl hi)
        · intro i hi
          simp at hi
          rw [set_get hlt2, if_neg (by omega)]; exact hout i (Or.inr (by omega))
        · intro j n b v hj hv
          have := (List.getElem?_eq_some_iff.mp hj).1
          rw [set_get hlt2, if_neg (by omega)]; exact hin1 j n b v hj hv
        · intro j n b hj hv
          have := (List.getElem?_eq_some_iff.mp hj).1
          rw [set_get hlt2, if_neg (by omega)]; exact hin2 j n b hj hv
        · intro _
          rw [set_get hlt2, if_pos rfl]
    · rw [if_neg hcond]
      simp only [hkwr, Bool.or_eq_true, Bool.and_eq_true, Bool.not_not, not_or, not_and] at hcond
      refine ⟨r1, rfl, rfl, fun _ _ => rfl, fun _ _ => rfl, ?_, fun _ _ _ _ _ => rfl, ?_⟩
      · intro j n b v hj hv
        exfalso
        have htk : s.takesKw = true := by
          have : s.kw ≠ [] := by intro e; rw [e] at hj; simp at hj
          simp [Sig.takesKw, this]
        have := hcond.2 htk
        cases kw with
        | none => simp at hv
        | some h => simp at this
      · intro h; exact absurd h hcond.1
  have hfin : finish (s.code locals) l kw blk = (match (if (s.code locals).params.kwrest || (!!s.takesKw && kw.isSome) then
        fillKeyword (s.code locals) r1 (kw.getD []) else .ok r1) with
        | .ok r2 => fillBlock (s.code locals) r2 blk
        | .error e => .error e) := by
    unfold finish
    rw [noKw_eq, e1]
    simp only [bind, Except.bind]
    by_cases hcond : ((s.code locals).params.kwrest || (!!s.takesKw && kw.isSome)) = true
    · rw [if_pos hcond, if_pos hcond]
      cases fillKeyword (s.code locals) r1 (kw.getD []) <;> rfl
    · rw [if_neg hcond, if_neg hcond]
  constructor
  · intro hknown
    obtain ⟨r2, e2, hl2, ha, hb, hc, hd, he⟩ := hkwstep hknown
    rw [hfin, e2]
    simp only [fillBlock]
    have hblk : (s.code locals).lvar.block = s.block.map (fun _ => s.kwBase + s.kw.length + s.kwrest.toList.length) := rfl
    rw [hblk]
    have hr1pos : ∀ i, i < s.kwBase → r1[i]? = d[i]? := by
      intro i hi; rw [hg1, if_neg (by rw [hmem]; omega)]
    have hr1kw : ∀ j, j < s.kw.length → r1[s.kwBase + j]? = some .uninit := by
      intro j hj; rw [hg1, if_pos (by rw [hmem]; omega)]
    have hr1nil : ∀ i, s.kwBase + s.kw.length ≤ i → i < (s.code locals).lvars → r1[i]? = some .nil := by
      intro i h1 h2; rw [hg1, if_neg (by rw [hmem]; omega)]; exact hdnil i (by omega) h2
    match hq : s.block with
    | none =>
      refine ⟨r2, rfl, ?_, ?_, hc, ?_, he, by simp [hq], ?_⟩
      · rw [hl2, hl1, hdl, hlv]
      · intro i hi; rw [ha i hi, hr1pos i hi, hdef]
      · intro j n b hj hv
        rw [hd j n b hj hv, hr1kw j (List.getElem?_eq_some_iff.mp hj).1]
      · intro i hi
        rw [hb _ (by rw [hnl]; omega)]
        exact hr1nil _ (by rw [hnl]; omega) (by rw [hlv]; omega)
    | some m =>
      have hlt2 : s.kwBase + s.kw.length + s.kwrest.toList.length < r2.length := by
        rw [hl2, hl1, hdl, hlv, hnl, hq]; simp; omega
      refine ⟨_, write_ok hlt2, ?_, ?_, ?_, ?_, ?_, ?_, ?_⟩
      · rw [List.length_set, hl2, hl1, hdl, hlv]
      · intro i hi; rw [set_get hlt2, if_neg (by omega), ha i hi, hr1pos i hi, hdef]
      · intro j n b v hj hv
        have := (List.getElem?_eq_some_iff.mp hj).1
        rw [set_get hlt2, if_neg (by omega), hc j n b v hj hv]
      · intro j n b hj hv
        have := (List.getElem?_eq_some_iff.mp hj).1
        rw [set_get hlt2, if_neg (by omega), hd j n b hj hv, hr1kw j this]
      · intro h
        rw [set_get hlt2, if_neg, he h]
        obtain ⟨m', hm'⟩ := Option.isSome_iff_exists.mp h
        rw [hm']; simp
      · intro _
        rw [set_get hlt2, if_pos rfl]
        cases blk <;> rfl
      · intro i hi
        have : s.names.length = s.kwBase + s.kw.length + s.kwrest.toList.length + 1 := by
          rw [hnl, hq]; rfl
        rw [set_get hlt2, if_neg (by omega), hb _ (by rw [hnl]; omega)]
        exact hr1nil _ (by rw [hnl]; omega) (by rw [hlv]; omega)
  · intro hunk
    have htk : s.takesKw = true := by
      cases h : s.takesKw
      · exact absurd (Or.inl h) hunk
      · rfl
    have hsome : kw.isSome = true := by
      cases kw with
      | none => exact absurd (Or.inr (Or.inr (by simp))) hunk
      | some h => rfl
    rw [hfin, if_pos (by simp [htk, hsome])]
    unfold fillKeyword
    rw [fillKwLoop_unknown _ _ _ _ hs ?_]
    · rfl
    · rintro (h | h)
      · exact hunk (Or.inr (Or.inl h))
      · refine hunk (Or.inr (Or.inr (fun p hp => ?_)))
        have := h p hp
        rw [lookup_isSome hOk hstar] at this
        exact of_decide_eq_true this

end Verif.Args
