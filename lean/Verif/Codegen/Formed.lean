import Verif.Codegen.Front
import Verif.Codegen.Goto
import Verif.Codegen.Props
/-!
# Code that the compiler makes is well-formed
-/
namespace Verif.Codegen
open Verif.ISeq Op
open Verif.Value (Val)

variable {W X : Type} {F : Prop}

theorem conds (x : Ctx) : Conds F x := fun _ e h =>
  ⟨(front_gen e).cond h, ((front_gen e).gen true h).fst.thn (free x e true _) fun _ => Keep.jmpT⟩

theorem Sound.start {consts : List Const} {case1 : List (Option CaseMap)} {case2 : List (Option CaseMap2)} {caches : Nat} :
    Sound F (fun _ _ _ => False) (.start consts case1 case2 caches) := by
  have no : ∀ (p : Nat) (op : Byte), ¬ (([] : Code)[p]? = some op) := by simp
  have zero : ∀ p, Start [] p → p = 0 := by
    intro p hp
    cases hp with
    | zero => rfl
    | next pos op sz _ ho _ => exact absurd ho (no _ _)
  refine ⟨.zero, fun p hp => by rw [zero p hp]; exact Nat.zero_le _, fun p op _ h => absurd h (no _ _),
    fun _ p op sz d _ h => absurd h (no _ _), fun _ _ p op d _ h => absurd h (no _ _), ?_, ?_, ?_,
    fun _ p op i _ h => absurd h (no _ _), fun _ p q op i _ _ h => absurd h (no _ _), fun op i p h => h.elim⟩
  · intro l hl e he
    cases List.mem_singleton.1 hl
    cases he
  · intro d hd; cases hd
  · intro e he; cases he

/-- The states before and after the final `RETURN`. -/
theorem iseq_sound {x : Ctx} {e : Node} {consts : List Const} {case1 : List (Option CaseMap)}
    {case2 : List (Option CaseMap2)} {caches : Nat} {g : G} (ht : F → Tame e)
    (h : gen_iseq x e (.start consts case1 case2 caches) = .ok ((), g)) :
    ∃ g1, Sound F (fun _ _ _ => False) g1 ∧ Sound F (fun _ _ _ => False) g ∧ g.code = g1.code ++ [RETURN] ∧ Same g1 g := by
  obtain ⟨_, g1, e1, e2⟩ := bindM.1 h
  obtain ⟨s1, -, -⟩ := (gen_keep (conds x) e ht).gen true [] _ _ _ _ (.refl _) .start e1
  obtain ⟨s2, -, -⟩ := (ins : Keep F g1.code (emitM RETURN []) Any') _ _ _ _ (.refl _) s1 e2
  cases e2
  exact ⟨g1, s1, s2, by rw [emit_eq]; rfl, rfl, rfl, rfl, rfl, rfl⟩

theorem readAt32_move {c c1 : Code} {p q : Nat} (h : ∀ i < 4, c[q + i]? = c1[p + i]?) :
    readAt32 c q = readAt32 c1 p := by
  have h0 := h 0 (by omega); have h1 := h 1 (by omega); have h2 := h 2 (by omega); have h3 := h 3 (by omega)
  simp only [Nat.add_zero] at h0
  unfold readAt32 read32 read8
  rw [h0]
  rcases c1[p]? with _ | a
  · rfl
  · simp only [Option.map_some, Option.bind_eq_bind, Option.bind_some]
    rw [h1]
    rcases c1[p + 1]? with _ | b
    · rfl
    · simp only [Option.map_some, Option.bind_some]
      rw [show q + 1 + 1 = q + 2 from rfl, show p + 1 + 1 = p + 2 from rfl, h2]
      rcases c1[p + 2]? with _ | b
      · rfl
      · simp only [Option.map_some, Option.bind_some]
        rw [show q + 2 + 1 = q + 3 from rfl, show p + 2 + 1 = p + 3 from rfl, h3]
        rcases c1[p + 3]? with _ | b
        · rfl
        · rfl

theorem read32_pos {c : Code} {p k : Nat} {v : BitVec 32} (h : read32 c p = some (v, k)) : k = p + 4 := by
  unfold read32 read8 at h
  simp only [Option.bind_eq_bind, Option.bind_eq_some_iff, Option.map_eq_some_iff, Option.pure_def, Option.some.injEq,
    Prod.exists, Prod.mk.injEq] at h
  obtain ⟨_, _, ⟨_, _, -, rfl⟩, _, _, ⟨_, _, -, rfl⟩, _, _, ⟨_, _, -, rfl⟩, _, _, ⟨_, _, -, rfl⟩, -, rfl⟩ := h
  rfl

theorem operand_read {c : Code} {p : Nat} {a b : BitVec 32} {q : Nat} {r : List Operand}
    (h : readOperands ((c.drop (p + 1)).take 8) 0 [.w32, .w32] = some (r, q)) (he : r = [.o32 a, .o32 b]) :
    readAt32 c (p + 1) = some a ∧ readAt32 c (p + 5) = some b := by
  subst he
  have get : ∀ i < 8, ((c.drop (p + 1)).take 8)[i]? = c[p + 1 + i]? := by
    intro i hi
    rw [List.getElem?_take, if_pos hi, List.getElem?_drop]
  simp only [readOperands, readOperand, Option.bind_eq_bind] at h
  rcases h1 : read32 ((c.drop (p + 1)).take 8) 0 with _ | ⟨v, k⟩
  · rw [h1] at h; simp at h
  rw [h1] at h
  simp only [Option.map_some, Option.bind_some] at h
  have hk : k = 4 := by have := read32_pos h1; omega
  subst hk
  rcases h2 : read32 ((c.drop (p + 1)).take 8) 4 with _ | ⟨v', k'⟩
  · rw [h2] at h; simp at h
  rw [h2] at h
  simp at h
  obtain ⟨⟨rfl, rfl⟩, -⟩ := h
  constructor
  · rw [← readAt32_move (c := (c.drop (p + 1)).take 8) (q := 0) fun i hi => by
      rw [Nat.zero_add]; exact get i (by omega)]
    unfold readAt32
    rw [h1]
    rfl
  · rw [← readAt32_move (c := (c.drop (p + 1)).take 8) (q := 4) fun i hi => by
      rw [get (4 + i) (by omega)]; congr 1; omega]
    unfold readAt32
    rw [h2]
    rfl

/-- Well-formed, for the interpreter with the tables loaded. -/
theorem Sound.formed {g : G} {K : Env W X} (h : Sound F (fun _ _ _ => False) g) (b : Bounded g) (hl : Loaded g K) :
    WellFormed (machine K) g.code where
  short := b.code
  whole p op hp ho := by
    obtain ⟨sz, hs⟩ := h.sized p op hp ho
    exact ⟨sz, hs, h.end_of hp ho hs⟩
  jumps p op d hp ho hj hd := by
    have hs : slot op = some 5 := by
      rcases hj with hj | hj
      · exact slot_jmp ((jumps_iff op).1 hj)
      · have := (branches_iff op).1 hj
        unfold slot
        rw [this]
        simp
    exact h.slots b p op 5 d hp ho hs hd
  jumpsI p op d hp ho hj hd := by
    have hs : slot op = some 9 := by
      have : ∀ op : Byte, isCondI op = true → slot op = some 9 := by decide +kernel
      exact this op ((branchesI_iff op).1 hj)
    exact h.slots b p op 9 d hp ho hs (by simpa using hd)
  gotoTest p op i s q s' hp ho he := by
    obtain ⟨en, hen, rfl⟩ := testOp_goto he
    rw [hl.ex] at hen
    exact h.ex en hen
  gotoExec p op sz s q s' hp ho hsz he := by
    dsimp only [machine] at he
    rcases hv : vmOperands op with _ | ws
    · rw [hv] at he; cases he
    rw [hv] at he
    dsimp only at he
    rcases hr : readOperands ((g.code.drop (p + 1)).take (sz - 1)) 0 ws with _ | ⟨args, k⟩
    · rw [hr] at he; cases he
    rw [hr] at he
    dsimp only at he
    rcases execOp_goto s q s' he with ⟨en, hen, rfl⟩ | ⟨a, b', d, hargs, rfl, hc⟩
    · rw [hl.ex] at hen
      exact h.ex en hen
    have hop : op = OPT_CASE ∨ op = OPT_CASE2 := hc.imp (·.1) (·.1)
    obtain ⟨z1, z2⟩ := case_size hop
    rw [z1] at hsz
    cases hsz
    have hws : ws = [.w32, .w32] := by
      rcases hop with rfl | rfl <;> (rw [← Option.some.injEq, ← hv]; rfl)
    subst hws
    obtain ⟨r1, r2⟩ := operand_read hr hargs
    obtain ⟨-, hP | ⟨ds, t1, t2⟩⟩ := h.ref b p op a hp ho hop r1
    · exact hP.elim
    have hb := h.slots b p op 9 b' hp ho z2 r2
    rcases hc with ⟨rfl, m, hm, hd⟩ | ⟨rfl, m, hm, hd⟩
    · rcases hd with rfl | hd
      · exact hb
      · unfold tab at t1
        rw [if_pos rfl] at t1
        rcases hg : g.case1[a.toNat]? with _ | _ | m'
        · rw [hg] at t1; cases t1
        · rw [hg] at t1; cases t1
        · rw [hg] at t1
          have := hl.case1 _ _ hg
          rw [this] at hm
          cases hm
          cases t1
          exact t2 d hd
    · rcases hd with rfl | hd
      · exact hb
      · unfold tab at t1
        rw [if_neg (by decide)] at t1
        rcases hg : g.case2[a.toNat]? with _ | _ | m'
        · rw [hg] at t1; cases t1
        · rw [hg] at t1; cases t1
        · rw [hg] at t1
          have := hl.case2 _ _ hg
          rw [this] at hm
          cases hm
          cases t1
          exact t2 d hd

/-- No cycles. -/
theorem Sound.acyclic {g1 g : G} (h1 : Sound True (fun _ _ _ => False) g1) (hc : g.code = g1.code ++ [RETURN])
    (b : Bounded g1) (h : Sound True (fun _ _ _ => False) g) : NoCycle g.code g.code := by
  have hlen : g.code.length = g1.code.length + 1 := by rw [hc]; simp
  have get : ∀ p, p < g1.code.length → g.code[p]? = g1.code[p]? := fun p hp => by
    rw [hc, List.getElem?_append_left hp]
  have last : g.code[g1.code.length]? = some RETURN := by rw [hc]; simp
  have st : ∀ p, Start g.code p → p < g1.code.length → Start g1.code p := by
    intro p hp
    rw [hc] at hp
    intro hlt
    rcases (start_app (bs := []) (op := RETURN) h1.whole h1.fits (by decide)).2.1 p hp with h | h
    · exact h
    · simp at h; omega
  -- a jump of the last code is one of the code before
  have jump : ∀ p op d, Start g.code p → g.code[p]? = some op → isJmp op = true ∨ isCond op = true →
      readAt32 g.code (p + 1) = some d → Start g1.code p ∧ g1.code[p]? = some op ∧ readAt32 g1.code (p + 1) = some d ∧
        Start g1.code (addDisp (p + 5) d) := by
    intro p op d hp ho hj hd
    have hne : p ≠ g1.code.length := by
      rintro rfl
      rw [last] at ho
      cases ho
      revert hj; decide
    have hlt : p < g1.code.length := by
      have := (List.getElem?_eq_some_iff.1 ho).1
      omega
    have hp1 := st p hp hlt
    rw [get p hlt] at ho
    have hs : slot op = some 5 := by
      rcases hj with hj | hj
      · exact slot_jmp hj
      · unfold slot; rw [hj]; simp
    have he := h1.end_of hp1 ho (slot_size hs)
    rw [hc, readAt32_app (by omega)] at hd
    exact ⟨hp1, ho, hd, h1.slots b p op 5 d hp1 ho hs hd⟩
  have ends : ∀ n p, g1.code.length - p = n → Start g1.code p → Ends g.code p := by
    intro n
    induction n using Nat.strong_induction_on with
    | _ n ih =>
      intro p hn hp
      have hle := h1.fits p hp
      have hgp : Start g.code p := by rw [hc]; exact (start_app (bs := []) (op := RETURN) h1.whole h1.fits (by decide)).1 p hp
      obtain ⟨op, ho⟩ : ∃ op, g.code[p]? = some op := ⟨_, List.getElem?_eq_getElem (by omega)⟩
      by_cases hj : isJmp op = true
      · obtain ⟨sz, hs, hw⟩ : ∃ sz, inst_size op = some sz ∧ p + sz ≤ g.code.length := by
          obtain ⟨sz, hs⟩ := h.sized p op hgp ho
          exact ⟨sz, hs, h.end_of hgp ho hs⟩
        rw [slot_size (slot_jmp hj)] at hs
        cases hs
        obtain ⟨d, hd⟩ := readAt32_some (c := g.code) (p := p + 1) (by omega)
        obtain ⟨-, ho1, hd1, ht⟩ := jump p op d hgp ho (.inl hj) hd
        have hJ : J g.code p (addDisp (p + 5) d) := ⟨op, d, ho, hj, hd, rfl⟩
        have hlt : p < g1.code.length := (List.getElem?_eq_some_iff.1 ho1).1
        have : Ends g.code (addDisp (p + 5) d) := by
          rcases h1.back trivial b p op d hp ho1 hj hd1 with hb | ⟨o, k1, k2, k3⟩
          · exact ih _ (by omega) _ rfl ht
          · exact ⟨_, o, .refl, by rw [get _ (List.getElem?_eq_some_iff.1 k2).1]; exact k2, k3⟩
        obtain ⟨t, o, q1, q2, q3⟩ := this
        exact ⟨t, o, .head hJ q1, q2, q3⟩
      · exact ⟨p, op, .refl, ho, by simpa using hj⟩
  intro p op d hp ho hj hd
  exact ends _ _ rfl (jump p op d hp ho hj hd).2.2.2

/-! ## Histories and outcomes -/

theorem Steps.shows {K : Env W X} {c : Code} {k : Conf (S W) (R W X)} {r : R W X} (h : Steps K c k (.done r)) :
    ∃ tr, Shows (machine K) c k (tr ++ [.ended r]) := by
  induction h using Relation.ReflTransGen.head_induction_on with
  | refl => exact ⟨[], .ended r⟩
  | head h _ ih =>
    obtain ⟨p, s, ev, rfl, he⟩ := h
    obtain ⟨tr, ih⟩ := ih
    cases ev with
    | none => exact ⟨tr, .silent p s _ _ he ih⟩
    | some e => exact ⟨e :: tr, .event p s e _ _ he ih⟩

theorem step_ran {S R : Type} {M : Machine S R} {c : Code} {p : Nat} {s : S} {r : R} {k : Conf S R} :
    step M c p s ≠ some (some (.ended r), k) := by
  intro h
  unfold step at h
  repeat' split at h
  all_goals cases h

theorem Shows.steps {K : Env W X} {c : Code} {k : Conf (S W) (R W X)} {r : R W X} {tr} (h : Shows (machine K) c k tr)
    (hr : .ended r ∈ tr) : Steps K c k (.done r) := by
  induction h with
  | nil => cases hr
  | ended r' => cases List.mem_singleton.1 hr; exact .refl _
  | silent pos s k tr he _ ih => exact (Steps.one he).trans (ih hr)
  | event pos s e k tr he _ ih =>
    rcases List.mem_cons.1 hr with rfl | hr
    · exact absurd he step_ran
    · exact (Steps.one he).trans (ih hr)

end Verif.Codegen
