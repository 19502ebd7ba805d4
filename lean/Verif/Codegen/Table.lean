import Verif.Codegen.Case
/-!
# `case` by table
-/
namespace Verif.Codegen
open Verif.ISeq Op
open Verif.Value (Val)

variable {W X : Type}

/-! ### The map -/

/-- Number of branches. -/
def Whens.len : Whens → Nat
  | .nil => 0
  | .cons _ _ rest => rest.len + 1

/-- The map of a table-driven `case` whose bodies are at `ps`. -/
def tableMap (start : Nat) : Whens → List Nat → CaseMap
  | .cons ls _ rest, p :: ps => labelDisps ls (dispTo start p) ++ tableMap start rest ps
  | _, _ => []

/-- The last entry whose label satisfies `p`. -/
def lastD (p : Lit → Bool) (m : CaseMap) : Option (BitVec 32) :=
  (m.reverse.find? fun e => p e.1).map (·.2)

theorem lastD_append (p : Lit → Bool) (a b : CaseMap) : lastD p (a ++ b) = (lastD p b).or (lastD p a) := by
  unfold lastD
  rw [List.reverse_append, List.find?_append]
  cases List.find? (fun e => p e.1) b.reverse <;> simp

theorem lastD_cons (p : Lit → Bool) (e : Lit × BitVec 32) (m : CaseMap) :
    lastD p (e :: m) = (lastD p m).or (if p e.1 then some e.2 else none) := by
  have := lastD_append p [e] m
  rw [List.singleton_append] at this
  rw [this]
  congr 1
  unfold lastD
  cases h : p e.1 <;> simp [h]

theorem lastD_labels (p : Lit → Bool) (ls : Nodes) (d : BitVec 32) :
    lastD p (labelDisps ls d) =
      if (Whens.labels.toList ls).any (fun n => n.lit?.any p) then some d else none := by
  unfold labelDisps
  induction Whens.labels.toList ls with
  | nil => rfl
  | cons n ns ih =>
    rw [List.filterMap_cons]
    rcases hl : n.lit? with _ | l
    · simp only [Option.map_none]
      rw [ih]; simp [hl]
    · simp only [Option.map_some]
      rw [lastD_cons, ih]
      cases hp : p l <;> cases h2 : List.any ns (fun n => n.lit?.any p) <;> simp [hl, hp, h2]

theorem lastD_table (p : Lit → Bool) (start : Nat) : ∀ (ws : Whens) (ps : List Nat), ps.length = ws.len →
    lastD p (tableMap start ws ps) = (ws.lastIdx p).map fun i => dispTo start (ps.getD i 0)
  | .nil, ps, _ => by simp [tableMap, lastD, Whens.lastIdx]
  | .cons ls b rest, [], h => by simp [Whens.len] at h
  | .cons ls b rest, q :: ps, h => by
    have ih := lastD_table p start rest ps (by simpa [Whens.len] using h)
    rw [tableMap, lastD_append, ih, lastD_labels, Whens.lastIdx]
    cases rest.lastIdx p with
    | some i => simp
    | none =>
      simp only [Option.map_none, Option.none_or]
      cases List.any (Whens.labels.toList ls) (fun n => n.lit?.any p) <;> simp

theorem lastIdx_lt (p : Lit → Bool) : ∀ (ws : Whens) (i : Nat), ws.lastIdx p = some i → i < ws.len
  | .nil, i, h => by simp [Whens.lastIdx] at h
  | .cons ls b rest, i, h => by
    rw [Whens.lastIdx] at h
    rcases hr : rest.lastIdx p with _ | j
    · rw [hr] at h
      dsimp only at h
      split at h
      · cases h; simp [Whens.len]
      · cases h
    · rw [hr] at h
      have := lastIdx_lt p rest j hr
      cases h
      simp only [Whens.len]; omega

theorem mem_labelDisps {ls : Nodes} {d : BitVec 32} {e : Lit × BitVec 32} (h : e ∈ labelDisps ls d) :
    Node.lit e.1 ∈ Whens.labels.toList ls := by
  unfold labelDisps at h
  obtain ⟨n, hn, h⟩ := List.mem_filterMap.1 h
  cases n with
  | lit l => simp only [Node.lit?, Option.map_some, Option.some.injEq] at h; subst h; exact hn
  | _ => simp [Node.lit?] at h

theorem mem_tableMap (start : Nat) : ∀ (ws : Whens) (ps : List Nat) {e : Lit × BitVec 32},
    e ∈ tableMap start ws ps → Node.lit e.1 ∈ ws.labels
  | .nil, _, e, h => by simp [tableMap] at h
  | .cons ls b rest, [], e, h => by simp [tableMap] at h
  | .cons ls b rest, q :: ps, e, h => by
    rw [tableMap, List.mem_append] at h
    rw [Whens.labels, List.mem_append]
    rcases h with h | h
    · exact .inl (mem_labelDisps h)
    · exact .inr (mem_tableMap start rest ps h)

theorem fold_bounds (l : List Int) : ∀ (lo hi : Int),
    let r := l.foldl (fun (lo, hi) i => (if i < lo then i else lo, if i > hi then i else hi)) (lo, hi)
    (r.1 ≤ lo ∧ hi ≤ r.2) ∧ ∀ i ∈ l, r.1 ≤ i ∧ i ≤ r.2 := by
  induction l with
  | nil => intro lo hi; simp
  | cons a l ih =>
    intro lo hi
    rw [List.foldl_cons]
    obtain ⟨⟨h1, h2⟩, h3⟩ := ih (if a < lo then a else lo) (if a > hi then a else hi)
    refine ⟨⟨?_, ?_⟩, ?_⟩
    · refine Int.le_trans h1 ?_; split <;> omega
    · refine Int.le_trans ?_ h2; split <;> omega
    · intro i hi'
      rcases List.mem_cons.1 hi' with rfl | hi'
      · constructor
        · refine Int.le_trans h1 ?_; split <;> omega
        · refine Int.le_trans ?_ h2; split <;> omega
      · exact h3 i hi'

theorem bounds_spec (ws : Whens) (i : Int) (h : Node.lit (.int i) ∈ ws.labels) : ws.bounds.1 ≤ i ∧ i ≤ ws.bounds.2 := by
  refine (fold_bounds (ws.labels.filterMap Node.int?) (2 ^ 63 - 1) (-2 ^ 63)).2 i ?_
  exact List.mem_filterMap.2 ⟨_, h, rfl⟩

theorem caseVec_get (lo : Int) (i : Int) (hi : lo ≤ i) (p : Lit → Bool) (hp : ∀ l, p l = true ↔ l = .int i) :
    ∀ (m : CaseMap), (∀ e ∈ m, ∀ j, e.1 = .int j → lo ≤ j) → ∀ (v : List (BitVec 32)) (d : BitVec 32),
      v[(i - lo).toNat]? = some d →
      (m.foldl (fun v (l, d) => match l with
        | .int i => v.set (i - lo).toNat d
        | _ => v) v)[(i - lo).toNat]? = some ((lastD p m).getD d)
  | [], _, v, d, hv => by simpa [lastD] using hv
  | (l, e) :: m, hm, v, d, hv => by
    rw [List.foldl_cons, lastD_cons]
    have hm' : ∀ e ∈ m, ∀ j, e.1 = .int j → lo ≤ j := fun e he => hm e (by simp [he])
    by_cases hl : p l = true
    · have hli := (hp l).1 hl
      subst hli
      dsimp only
      rw [caseVec_get lo i hi p hp m hm' _ e (by
        rw [List.getElem?_set_self (List.getElem?_eq_some_iff.1 hv).1])]
      rw [if_pos hl]
      cases lastD p m <;> simp
    · rw [if_neg hl, Option.or_none]
      refine caseVec_get lo i hi p hp m hm' _ d ?_
      dsimp only
      cases l with
      | int j =>
        have hj : j ≠ i := fun e => hl ((hp _).2 (by rw [e]))
        have := hm _ (List.mem_cons_self ..) j rfl
        dsimp only
        rw [List.getElem?_set_ne (by omega)]
        exact hv
      | _ => exact hv

theorem lookup2_table (w : World W X) (σ : St W) (start : Nat) (ws : Whens) (ps : List Nat) (hl : ps.length = ws.len)
    (v : Val) (d : BitVec 32) :
    lookup2 v (ws.bounds.1, ws.bounds.2, caseVec ws.bounds.1 ws.bounds.2 (tableMap start ws ps) d) d =
      some (((ws.lastIdx (tableEq w true v σ)).map fun i => dispTo start (ps.getD i 0)).getD d) := by
  rw [← lastD_table _ _ _ _ hl]
  unfold lookup2
  have hnone : ∀ q : Lit → Bool, (∀ e ∈ tableMap start ws ps, q e.1 = false) →
      lastD q (tableMap start ws ps) = none := by
    intro q hq
    unfold lastD
    rw [Option.map_eq_none_iff, List.find?_eq_none]
    intro e he
    rw [hq e (List.mem_reverse.1 he)]; simp
  rcases hv : fixnum? v with _ | i
  · dsimp only
    rw [hnone _ fun e _ => by unfold tableEq; cases e.1 <;> simp [hv]]; rfl
  · dsimp only
    have hp : ∀ l, tableEq w true v σ l = true ↔ l = .int i := by
      intro l
      unfold tableEq
      cases l <;> simp [hv]
      exact eq_comm
    by_cases hb : ws.bounds.1 ≤ i ∧ i ≤ ws.bounds.2
    · rw [if_pos hb]
      refine caseVec_get _ i hb.1 _ hp _ ?_ _ d ?_
      · intro e he j hj
        exact (bounds_spec ws j (by rw [← hj]; exact mem_tableMap start ws ps he)).1
      · rw [List.getElem?_replicate, if_pos (by omega)]
    · rw [if_neg hb, hnone _ ?_]
      · rfl
      · intro e he
        by_contra h
        simp only [Bool.not_eq_false] at h
        have := (hp _).1 h
        exact hb (bounds_spec ws i (by rw [← this]; exact mem_tableMap start ws ps he))

theorem lookup1_table (K : Env W X) (σ : St W) (start : Nat) (ws : Whens) (ps : List Nat) (hl : ps.length = ws.len)
    (v : Val) :
    lookup1 K σ v (tableMap start ws ps) =
      (ws.lastIdx (tableEq K.world false v σ)).map fun i => dispTo start (ps.getD i 0) := by
  rw [← lastD_table _ _ _ _ hl]
  rfl

/-! ### Branches -/

/-- The branches: their bodies are at `ps`. -/
def TableOK (x : Ctx) (ws : Whens) (m : Nat → M (CaseMap × List Nat)) (uv : Bool) (sup : Bool → Bool → Bool → Prop)
    (ev : Env W X → Nat → Nat → St W → Ans W X) : Prop :=
  ∀ start g r g', m start g = .ok (r, g') → ∃ ps : List Nat, r.1 = tableMap start ws ps ∧ ps.length = ws.len ∧
    (∀ p ∈ ps, p ≤ g'.code.length) ∧ ∀ L, Step g L g' (r.2 ++ L) fun c K => ∀ T te, Site' c K T g g' →
      (∀ s ∈ r.2, Site c s te) → te ≤ c.length →
      ∀ i, i < ws.len → ∀ n emp d base st σ r σ', sup (!loopTop g) emp d → (emp = true → st = []) →
        (d = true → st = base) → ev K n i σ = some (r, σ') →
        Reach K c x T g g' base (.at (ps.getD i 0) ⟨st, σ⟩) (AtEnd te uv st) r σ'

theorem TableOK.nil {x : Ctx} {uv : Bool} {sup : Bool → Bool → Bool → Prop}
    {ev : Env W X → Nat → Nat → St W → Ans W X} :
    TableOK x .nil (fun _ => pure ([], [])) uv sup ev := by
  intro start g r g' h
  obtain ⟨rfl, rfl⟩ := pureM.1 h
  refine ⟨[], rfl, rfl, by simp, fun L => (Step.refl _ _).mono ?_⟩
  intro c K _ T te hS _ _ i hi
  simp [Whens.len] at hi

theorem TableOK.cons {x : Ctx} {ls : Nodes} {body : Node} {rest : Whens} {mb : M Unit}
    {mr : Nat → M (CaseMap × List Nat)} {uv : Bool} {supb supr : Bool → Bool → Bool → Prop}
    {evb : Env W X → Nat → St W → Ans W X} {evr : Env W X → Nat → Nat → St W → Ans W X}
    (hb : GenOK x mb uv supb evb) (hr : TableOK x rest mr uv supr evr) :
    TableOK x (.cons ls body rest) (fun start => do
        let disp := dispTo start (← curM)
        mb
        let e ← jumpM JMP
        let (map, ends) ← mr start
        pure (labelDisps ls disp ++ map, e :: ends)) uv (fun lp e d => supb lp e d ∧ supr lp e d)
      (fun K n i σ => match i with
        | 0 => evb K n σ
        | i + 1 => evr K n i σ) := by
  intro start g r g' hg
  obtain ⟨p, g0, h0, hg⟩ := bindM.1 hg
  obtain ⟨e1, e2⟩ := curM_ok h0
  have e1 := e1.symm; subst e1; subst e2
  obtain ⟨_, g1, h1, hg⟩ := bindM.1 hg
  obtain ⟨e, g2, h2, hg⟩ := bindM.1 hg
  obtain ⟨⟨map, ends⟩, g3, h3, hg⟩ := bindM.1 hg
  obtain ⟨rfl, rfl⟩ := pureM.1 hg
  obtain ⟨ps, hm, hl, hp, s3⟩ := hr _ _ _ _ h3
  dsimp only at hm s3
  have s1 := fun L => hb _ _ _ h1 L
  have s2 := fun L => jumpM_step (W := W) (X := X) L h2
  have s3 := fun L => (s3 (e :: L)).perm (L2 := (e :: ends) ++ L) (by simp)
  have t2 := fun L => (s2 L).trans (s3 L)
  refine ⟨g.code.length :: ps, by rw [hm]; rfl, by simp [hl, Whens.len], ?_, fun L => ?_⟩
  · intro q hq
    rcases List.mem_cons.1 hq with rfl | hq
    · exact ((s1 []).ext.trans (t2 []).ext).len
    · exact hp q hq
  refine ((s1 L).trans (t2 L)).mono ?_
  rintro c K ⟨f1, f2, f3⟩ T te hS hends hte i hi n emp d base st σ r σ' ⟨su1, su2⟩ he hd hv
  have hlen := hS.len
  have k3 := (s3 L).ext.len
  have e2 : Grow g g2 := ((s1 L).ext.trans (s2 L).ext).toGrow
  cases i with
  | zero =>
    dsimp only at hv
    refine ((f1 T (hS.sub (.refl _) (t2 L).ext.toGrow)).last (.refl g) (t2 L).ext.toGrow su1 he hd hv).post fun w => ?_
    exact run_jmp h2 f2 (hends e (by simp)) hS.sz.code (by omega) hte _
  | succ i =>
    dsimp only at hv
    have := f3 T te (hS.sub e2 (.refl _)) (fun s hs => hends s (by simp [hs])) hte i (by simpa [Whens.len] using hi)
      n emp d base st σ r σ' (by rw [e2.loopTop]; exact su2) he hd hv
    simpa using this.up e2 (.refl _)

/-! ### Dispatch -/

/-- A dispatch instruction: `FN` what its bytes are, `FS` what its table is. -/
structure DispOK (newC : M (Nat × Nat)) (fin : Nat → CaseMap → Nat → Nat → M Unit)
    (FN : Nat → Nat → Fact W X) (FS : Nat → CaseMap → Nat → Nat → Fact W X) : Prop where
  new : ∀ {g id start g1}, newC g = .ok ((id, start), g1) →
    (start = g.code.length + 9 ∧ g1.code.length = start) ∧ (∀ L, Step g L g1 (start :: L) (FN g.code.length id)) ∧
    ∀ {g2 g3 map p u}, Ext g1 g2 → fin id map start p g2 = .ok (u, g3) →
      (∀ L, Stp g2 L g3 L (FS id map start p)) ∧ g3.code = g2.code ∧ Grow g2 g3 ∧ Ext g g3

theorem Step.of {g g' : G} {L L' : List Nat} {F : Fact W X} (h : Stp g L g' L' F) (e : Ext g g') : Step g L g' L' F :=
  ⟨h, e⟩

theorem GenOK.caseTable {x : Ctx} {ws : Whens} {mc me : M Unit} {mt : Nat → M (CaseMap × List Nat)}
    {newC : M (Nat × Nat)} {fin : Nat → CaseMap → Nat → Nat → M Unit}
    {FN : Nat → Nat → Fact W X} {FS : Nat → CaseMap → Nat → Nat → Fact W X}
    {uv : Bool} {supc supt supe : Bool → Bool → Bool → Prop}
    {evc eve : Env W X → Nat → St W → Ans W X} {evt : Env W X → Nat → Nat → St W → Ans W X}
    {ints : Bool}
    (hc : GenOK x mc true supc evc) (ht : TableOK x ws mt uv supt evt) (he : GenOK x me uv supe eve)
    (hd : DispOK newC fin FN FS)
    (hrun : ∀ c (K : Env W X) pos id p ps v st σ, FN pos id c K → FS id (tableMap (pos + 9) ws ps) (pos + 9) p c K →
      Site c (pos + 9) p → Sizes c K → pos + 9 ≤ c.length → p ≤ c.length → ps.length = ws.len →
      (∀ q ∈ ps, q ≤ c.length) →
      Steps K c (.at pos ⟨v :: st, σ⟩)
        (.at (((ws.lastIdx (tableEq K.world ints v σ)).map fun i => ps.getD i 0).getD p) ⟨st, σ⟩)) :
    GenOK x (do
        mc
        let (id, start) ← newC
        let (map, ends) ← mt start
        let p ← curM
        fin id map start p
        patchCurM start
        me
        patchAllM ends) uv (fun lp e d => supc lp e d ∧ supt lp e d ∧ supe lp e d)
      (fun K n σ => onVal (evc K n σ) fun v σ =>
        match ws.lastIdx (tableEq K.world ints v σ) with
        | some i => evt K n i σ
        | none => eve K n σ) := by
  intro g0 u g' hg L
  obtain ⟨_, g, hc1, hg⟩ := bindM.1 hg
  obtain ⟨⟨id, start⟩, g1, h1, hg⟩ := bindM.1 hg
  obtain ⟨⟨map, ends⟩, g2, h2, hg⟩ := bindM.1 hg
  dsimp only at hg
  obtain ⟨p, g2', h3, hg⟩ := bindM.1 hg
  obtain ⟨e1, e2⟩ := curM_ok h3
  have e1 := e1.symm; subst e1; subst e2
  obtain ⟨_, g3, h4, hg⟩ := bindM.1 hg
  obtain ⟨_, g4, h5, hg⟩ := bindM.1 hg
  obtain ⟨_, g5, h6, h7⟩ := bindM.1 hg
  obtain ⟨⟨hst, hl1⟩, s1, hfin⟩ := hd.new h1
  obtain ⟨ps, hm, hl, hp, s2⟩ := ht _ _ _ _ h2
  dsimp only at hm s2
  obtain ⟨s3, hc3, gr3, ex3⟩ := hfin (s2 []).ext h4
  subst hm
  have sc := hc _ _ _ hc1 L
  have s1 := s1 L
  have s2 := (s2 (start :: L)).perm (L2 := start :: (ends ++ L)) (by simp)
  have s3 := s3 (start :: (ends ++ L))
  have s4 := patchCurM_step (W := W) (X := X) (ends ++ L) h5
  have l4 := patchCurM_len h5
  have s5 := he _ _ _ h6 (ends ++ L)
  obtain ⟨s6, l6⟩ := patchAllM_step (W := W) (X := X) L h7
  have t4 := s4.trans (s5.trans s6)
  have t1 := (Step.of (s1.stp.trans (s2.stp.trans s3)) ex3).trans t4
  refine (sc.trans t1).mono ?_
  rintro c K ⟨fc, ⟨f1, f2, f3⟩, f4, f5, f6⟩ T hS n emp d base st σ r σ' ⟨su1, su2, su3⟩ hem hdd hv
  have hlen := hS.len
  have k4 := t4.ext.len
  have k3 := gr3.len
  have k2 := s2.ext.len
  have e0 : Grow g0 g := sc.ext.toGrow
  have e1 : Grow g0 g1 := e0.trans s1.ext.toGrow
  have e3 : Grow g2 g' := gr3.trans t4.ext.toGrow
  have e4 : Grow g0 g4 := e1.trans (s2.ext.toGrow.trans (gr3.trans s4.ext.toGrow))
  rw [hc3] at f4
  rw [hc3] at k3 l4 k4
  rcases (fc T (hS.sub (.refl _) t1.ext.toGrow)).first (.refl g0) t1.ext.toGrow su1 hem hdd hv with
    ⟨v, σ1, -, hk, hs⟩ | hL
  · refine Reach.pre hs ?_
    subst hst
    have hgo := hrun c K g.code.length id g2.code.length ps v st σ1 f1 f3 f4 hS.sz (by omega) (by omega) hl
      (fun q hq => by have := hp q hq; omega)
    refine Reach.pre hgo ?_
    rw [Then_len l6]
    rcases hidx : ws.lastIdx (tableEq K.world ints v σ1) with _ | i
    · rw [hidx] at hk
      dsimp only at hk
      simp only [Option.map_none, Option.getD_none]
      rw [← l4]
      exact (f5 T (hS.sub e4 s6.ext.toGrow)).last e4 s6.ext.toGrow su3 hem hdd hk
    · rw [hidx] at hk
      dsimp only at hk
      simp only [Option.map_some, Option.getD_some]
      exact (f2 T g5.code.length (hS.sub e1 e3) f6 (by omega) i (lastIdx_lt _ _ _ hidx) n emp d base st σ1 r σ'
        (by rw [e1.loopTop]; exact su2) hem hdd hk).up e1 e3
  · exact .inr hL

/-- The bytes of a dispatch instruction, without the displacement. -/
def dispBytes (op : Byte) (pos id : Nat) : Fact W X := fun c _ =>
  ∀ i b, (op :: ([u32 id].map opBytes).flatten)[i]? = some b → c[pos + i]? = some b

theorem dispBytes.at {op : Byte} {pos id t : Nat} {c : Code} {K : Env W X} (h : dispBytes op pos id c K)
    (hs : Site c (pos + 9) t) : At c pos op [u32 id, .o32 (dispTo (pos + 9) t)] := by
  have hs := bytes_read32 hs
  intro i b hb
  have e : op :: (([u32 id, Operand.o32 (dispTo (pos + 9) t)]).map opBytes).flatten =
      (op :: ([u32 id].map opBytes).flatten) ++ le32 (dispTo (pos + 9) t) := by
    simp [opBytes]
  rw [e] at hb
  have l5 : (op :: ([u32 id].map opBytes).flatten).length = 5 := by simp [opBytes, u32, le32]
  by_cases hi : i < 5
  · rw [List.getElem?_append_left (by omega)] at hb
    exact h i b hb
  · rw [List.getElem?_append_right (by omega), l5] at hb
    have := hs _ _ hb
    rw [← this]
    congr 1
    omega

theorem set_prefix {α : Type} {l g2 : List (Option α)} {m : α} (h : l ++ [none] <+: g2) :
    l <+: g2.set l.length (some m) := by
  obtain ⟨t, rfl⟩ := h
  simp

theorem get_none {α : Type} {l g2 : List (Option α)} (h : l ++ [none] <+: g2) : g2[l.length]? = some none := by
  obtain ⟨t, rfl⟩ := h
  simp

theorem disp1OK : DispOK (W := W) (X := X) newCase1 (fun id map _ _ => setCase1 id map)
    (dispBytes OPT_CASE) (fun id map _ _ _ K => K.case1[id]? = some (some map)) := by
  constructor
  intro g id start g1 h
  unfold newCase1 at h
  dsimp only at h
  rcases he : emitM OPT_CASE [u32 g.case1.length, .o32 0] { g with case1 := g.case1 ++ [none] } with e | ⟨u, g1'⟩
  · rw [he] at h; cases h
  rw [he] at h
  cases h
  have hl := emitM_len he
  have hk := emitM_ok he
  have hs := fun L => emitHole_step (W := W) (X := X) (args := [u32 g.case1.length]) L he
  have hx0 : Ext g { g with case1 := g.case1 ++ [none] } :=
    Ext.code (Nat.le_refl _) rfl rfl (List.prefix_refl _) (List.prefix_append _ _) (List.prefix_refl _) rfl
  have h0 := fun L => Step.of (Stp.book (W := W) (X := X) (g := g) (g' := { g with case1 := g.case1 ++ [none] }) (L := L)
    rfl (.refl _) fun K f => f.mono hx0) hx0
  have hlen : g1.code.length = g.code.length + 9 := by rw [hl]; rfl
  have hc1 : g1.case1 = g.case1 ++ [none] := by rw [hk]
  refine ⟨⟨hlen, rfl⟩, fun L => ((h0 L).trans (hs L)).mono fun c K h => h.2, ?_⟩
  intro g2 g3 map p u ex hset
  cases hset
  have hpre : g.case1 ++ [none] <+: g2.case1 := by rw [← hc1]; exact ex.case1
  have hgr : Grow g2 { g2 with case1 := g2.case1.set g.case1.length (some map) } :=
    ⟨Nat.le_refl _, HeadExt.refl (LoopExt.refl _ _) _, HeadExt.refl (JumpExt.refl _ _) _, [], by simp, by simp⟩
  refine ⟨fun L => ?_, rfl, hgr, ?_⟩
  · refine (Stp.book (g := g2) (g' := { g2 with case1 := g2.case1.set g.case1.length (some map) }) (L := L) rfl (.refl _)
      fun K f => ⟨f.ex, f.consts, fun i m hm => f.case1 i m ?_, f.case2⟩).monoFit ?_
    · dsimp only
      rw [List.getElem?_set_ne]
      · exact hm
      · rintro rfl
        rw [get_none hpre] at hm
        cases hm
    · intro c K f _ _
      refine f.case1 _ _ ?_
      dsimp only
      rw [List.getElem?_set_self (List.getElem?_eq_some_iff.1 (get_none hpre)).1]
  · have e12 := ((h0 []).ext.trans (hs []).ext).trans ex
    exact ⟨e12.toGrow.trans hgr, e12.consts, set_prefix hpre, e12.case2⟩

theorem disp2OK {ws : Whens} : DispOK (W := W) (X := X) newCase2
    (fun id map start p => setCase2 id (ws.bounds.1, ws.bounds.2, caseVec ws.bounds.1 ws.bounds.2 map (dispTo start p)))
    (dispBytes OPT_CASE2) (fun id map start p _ K => K.case2[id]? =
      some (some (ws.bounds.1, ws.bounds.2, caseVec ws.bounds.1 ws.bounds.2 map (dispTo start p)))) := by
  constructor
  intro g id start g1 h
  unfold newCase2 at h
  dsimp only at h
  rcases he : emitM OPT_CASE2 [u32 g.case2.length, .o32 0] { g with case2 := g.case2 ++ [none] } with e | ⟨u, g1'⟩
  · rw [he] at h; cases h
  rw [he] at h
  cases h
  have hl := emitM_len he
  have hk := emitM_ok he
  have hs := fun L => emitHole_step (W := W) (X := X) (args := [u32 g.case2.length]) L he
  have hx0 : Ext g { g with case2 := g.case2 ++ [none] } :=
    Ext.code (Nat.le_refl _) rfl rfl (List.prefix_refl _) (List.prefix_refl _) (List.prefix_append _ _) rfl
  have h0 := fun L => Step.of (Stp.book (W := W) (X := X) (g := g) (g' := { g with case2 := g.case2 ++ [none] }) (L := L)
    rfl (.refl _) fun K f => f.mono hx0) hx0
  have hlen : g1.code.length = g.code.length + 9 := by rw [hl]; rfl
  have hc1 : g1.case2 = g.case2 ++ [none] := by rw [hk]
  refine ⟨⟨hlen, rfl⟩, fun L => ((h0 L).trans (hs L)).mono fun c K h => h.2, ?_⟩
  intro g2 g3 map p u ex hset
  cases hset
  have hpre : g.case2 ++ [none] <+: g2.case2 := by rw [← hc1]; exact ex.case2
  generalize (ws.bounds.1, ws.bounds.2, caseVec ws.bounds.1 ws.bounds.2 map (dispTo g1.code.length p)) = tab
  have hgr : Grow g2 { g2 with case2 := g2.case2.set g.case2.length (some tab) } :=
    ⟨Nat.le_refl _, HeadExt.refl (LoopExt.refl _ _) _, HeadExt.refl (JumpExt.refl _ _) _, [], by simp, by simp⟩
  refine ⟨fun L => ?_, rfl, hgr, ?_⟩
  · refine (Stp.book (g := g2) (g' := { g2 with case2 := g2.case2.set g.case2.length (some tab) }) (L := L) rfl (.refl _)
      fun K f => ⟨f.ex, f.consts, f.case1, fun i m hm => f.case2 i m ?_⟩).monoFit ?_
    · dsimp only
      rw [List.getElem?_set_ne]
      · exact hm
      · rintro rfl
        rw [get_none hpre] at hm
        cases hm
    · intro c K f _ _
      refine f.case2 _ _ ?_
      dsimp only
      rw [List.getElem?_set_self (List.getElem?_eq_some_iff.1 (get_none hpre)).1]
  · have e12 := ((h0 []).ext.trans (hs []).ext).trans ex
    exact ⟨e12.toGrow.trans hgr, e12.consts, e12.case1, set_prefix hpre⟩

theorem addDisp_opt {pos p : Nat} {ps : List Nat} {idx : Option Nat} {c : Code} (hc : c.length < 2 ^ 31)
    (h9 : pos + 9 ≤ c.length) (hp : p ≤ c.length) (hps : ∀ q ∈ ps, q ≤ c.length) :
    addDisp (pos + 9) ((idx.map fun i => dispTo (pos + 9) (ps.getD i 0)).getD (dispTo (pos + 9) p)) =
      (idx.map fun i => ps.getD i 0).getD p := by
  cases idx with
  | none => exact addDisp_dispTo _ _ (by omega) (by omega) (by omega)
  | some i =>
    have : ps.getD i 0 ≤ c.length := by
      rw [List.getD_eq_getElem?_getD]
      rcases h : ps[i]? with _ | q
      · simp
      · exact hps q (List.mem_of_getElem? h)
    exact addDisp_dispTo _ _ (by omega) (by omega) (by omega)

theorem GenOK.case1 {x : Ctx} {ws : Whens} {mc me : M Unit} {mt : Nat → M (CaseMap × List Nat)}
    {uv : Bool} {supc supt supe : Bool → Bool → Bool → Prop}
    {evc eve : Env W X → Nat → St W → Ans W X} {evt : Env W X → Nat → Nat → St W → Ans W X}
    (hc : GenOK x mc true supc evc) (ht : TableOK x ws mt uv supt evt) (he : GenOK x me uv supe eve) :
    GenOK x (do
        mc
        let (id, start) ← newCase1
        let (map, ends) ← mt start
        setCase1 id map
        patchCurM start
        me
        patchAllM ends) uv (fun lp e d => supc lp e d ∧ supt lp e d ∧ supe lp e d)
      (fun K n σ => onVal (evc K n σ) fun v σ =>
        match ws.lastIdx (tableEq K.world false v σ) with
        | some i => evt K n i σ
        | none => eve K n σ) := by
  refine GenOK.caseTable hc ht he disp1OK ?_
  intro c K pos id p ps v st σ f1 f2 hs sz h9 hp hl hps
  have hA := f1.at hs
  have hid : id < 2 ^ 32 := by
    have := (List.getElem?_eq_some_iff.1 f2).1
    have := sz.case1
    omega
  have hx := Steps.exec' K hA ⟨v :: st, σ⟩ (n := pos + 9) rfl (by okop)
  have ex : execOp K OPT_CASE [u32 id, .o32 (dispTo (pos + 9) p)] pos ⟨v :: st, σ⟩ =
      match v :: st, K.case1[(BitVec.ofNat 32 id).toNat]? with
      | v :: st, some (some m) => .goto (addDisp (pos + 9) ((lookup1 K σ v m).getD (dispTo (pos + 9) p))) ⟨st, σ⟩
      | _, _ => .halt R.stuck := by
    rfl
  rw [ex, toNat_ofNat32 hid, f2] at hx
  dsimp only at hx
  rw [lookup1_table K σ _ ws ps hl, addDisp_opt sz.code h9 hp hps] at hx
  exact hx

theorem GenOK.case2 {x : Ctx} {ws : Whens} {mc me : M Unit} {mt : Nat → M (CaseMap × List Nat)}
    {uv : Bool} {supc supt supe : Bool → Bool → Bool → Prop}
    {evc eve : Env W X → Nat → St W → Ans W X} {evt : Env W X → Nat → Nat → St W → Ans W X}
    (hc : GenOK x mc true supc evc) (ht : TableOK x ws mt uv supt evt) (he : GenOK x me uv supe eve) :
    GenOK x (do
        mc
        let (id, start) ← newCase2
        let (map, ends) ← mt start
        let default := dispTo start (← curM)
        let (lo, hi) := ws.bounds
        setCase2 id (lo, hi, caseVec lo hi map default)
        patchCurM start
        me
        patchAllM ends) uv (fun lp e d => supc lp e d ∧ supt lp e d ∧ supe lp e d)
      (fun K n σ => onVal (evc K n σ) fun v σ =>
        match ws.lastIdx (tableEq K.world true v σ) with
        | some i => evt K n i σ
        | none => eve K n σ) := by
  refine GenOK.caseTable hc ht he (disp2OK (ws := ws)) ?_
  intro c K pos id p ps v st σ f1 f2 hs sz h9 hp hl hps
  have hA := f1.at hs
  have hid : id < 2 ^ 32 := by
    have := (List.getElem?_eq_some_iff.1 f2).1
    have := sz.case2
    omega
  have hx := Steps.exec' K hA ⟨v :: st, σ⟩ (n := pos + 9) rfl (by okop)
  have ex : execOp K OPT_CASE2 [u32 id, .o32 (dispTo (pos + 9) p)] pos ⟨v :: st, σ⟩ =
      match v :: st, K.case2[(BitVec.ofNat 32 id).toNat]? with
      | v :: st, some (some m) => match lookup2 v m (dispTo (pos + 9) p) with
        | some d => .goto (addDisp (pos + 9) d) ⟨st, σ⟩
        | none => .halt R.stuck
      | _, _ => .halt R.stuck := by
    rfl
  rw [ex, toNat_ofNat32 hid, f2] at hx
  dsimp only at hx
  rw [lookup2_table K.world σ _ ws ps hl] at hx
  dsimp only at hx
  rw [addDisp_opt sz.code h9 hp hps] at hx
  exact hx

end Verif.Codegen
