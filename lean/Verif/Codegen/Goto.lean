import Verif.Codegen.VM
import Verif.Codegen.Shape
/-!
# Where the interpreter may continue
-/
namespace Verif.Codegen
open Verif.ISeq Op
open Verif.Value (Val)

variable {W X : Type}

theorem fail_goto {K : Env W X} {pc : Nat} {x : X} {σ : St W} {p : Nat} {s : S W} (h : fail K pc x σ = .goto p s) :
    ∃ en ∈ K.ex, p = en.dest := by
  unfold fail at h
  split at h
  · rename_i en he
    cases h
    exact ⟨en, List.mem_of_find?_eq_some he, rfl⟩
  · cases h

theorem pushE_goto {K : Env W X} {pc : Nat} {st : List Val} {e : Eff W X Val} {p : Nat} {s : S W}
    (h : pushE K pc st e = .goto p s) : ∃ en ∈ K.ex, p = en.dest := by
  obtain ⟨r | r, σ⟩ := e
  · exact fail_goto h
  · cases h

theorem dropE_goto {α : Type} {K : Env W X} {pc : Nat} {st : List Val} {e : Eff W X α} {p : Nat} {s : S W}
    (h : dropE K pc st e = .goto p s) : ∃ en ∈ K.ex, p = en.dest := by
  obtain ⟨r | r, σ⟩ := e
  · exact fail_goto h
  · cases h

theorem pushB_goto {K : Env W X} {pc : Nat} {st : List Val} {e : Eff W X Bool} {p : Nat} {s : S W}
    (h : pushB K pc st e = .goto p s) : ∃ en ∈ K.ex, p = en.dest := by
  obtain ⟨r | r, σ⟩ := e
  · exact fail_goto h
  · cases h

/-- Where the interpreter may go on after an instruction. -/
def Gto (K : Env W X) (op : Byte) (args : List Operand) (pc : Nat) (o : Out (S W) (R W X)) : Prop :=
  ∀ p s', o = .goto p s' → (∃ en ∈ K.ex, p = en.dest) ∨
    ∃ a b d, args = [.o32 a, .o32 b] ∧ p = addDisp (pc + 9) d ∧
      ((op = OPT_CASE ∧ ∃ m, K.case1[a.toNat]? = some (some m) ∧ (d = b ∨ d ∈ m.map (·.2))) ∨
       (op = OPT_CASE2 ∧ ∃ m, K.case2[a.toNat]? = some (some m) ∧ (d = b ∨ d ∈ m.2.2)))

variable {K : Env W X} {op : Byte} {args : List Operand} {pc : Nat}

theorem Gto.ite {c : Prop} [Decidable c] {a b : Out (S W) (R W X)} (h1 : c → Gto K op args pc a)
    (h2 : ¬ c → Gto K op args pc b) : Gto K op args pc (if c then a else b) := by
  by_cases h : c
  · rw [if_pos h]; exact h1 h
  · rw [if_neg h]; exact h2 h

macro "easy" : tactic => `(tactic| first
  | exact fun _ _ h => by cases h
  | exact fun _ _ h => .inl (fail_goto h)
  | exact fun _ _ h => .inl (pushE_goto h)
  | exact fun _ _ h => .inl (dropE_goto h)
  | exact fun _ _ h => .inl (pushB_goto h))

theorem Gto.consts {a : BitVec 32} {stk : List Val} {σ : St W} : Gto K op args pc (match K.consts[a.toNat]? with
    | some cv => let (v, σ) := constVal K σ cv; .next ⟨v :: stk, σ⟩
    | none => .halt .stuck) := by
  rcases K.consts[a.toNat]? with _ | cv <;> easy

/-- A goto comes from the exception table, or from the table of a `case`. -/
theorem execOp_goto (s : S W) : Gto K op args pc (execOp K op args pc s) := by
  obtain ⟨stk, st⟩ := s
  unfold execOp
  rcases hb : binOf op with _ | b
  rotate_left
  · rcases stk with _ | ⟨v1, _ | ⟨v2, _ | ⟨v3, l⟩⟩⟩
    all_goals
      dsimp only
      iterate 10 (refine .ite (fun _ => ?_) fun _ => ?_; · easy)
      easy
  rcases hc : cmpOf op with _ | b
  rotate_left
  · rcases stk with _ | ⟨v1, _ | ⟨v2, _ | ⟨v3, l⟩⟩⟩
    all_goals
      dsimp only
      iterate 10 (refine .ite (fun _ => ?_) fun _ => ?_; · easy)
      easy
  dsimp only
  iterate 10 (refine .ite (fun _ => ?_) fun _ => ?_; · rcases stk with _ | ⟨v1, _ | ⟨v2, _ | ⟨v3, l⟩⟩⟩ <;> easy)
  rcases args with _ | ⟨a1, _ | ⟨a2, _ | ⟨a3, _ | ⟨a4, _ | ⟨a5, l⟩⟩⟩⟩⟩
  · easy
  · rcases a1 with a | a | a | a
    · easy
    · easy
    · dsimp only
      iterate 9 (refine .ite (fun _ => ?_) fun _ => ?_; · rcases stk with _ | ⟨v1, _ | ⟨v2, _ | ⟨v3, l⟩⟩⟩ <;> easy)
      refine .ite (fun _ => ?_) fun _ => ?_
      · exact Gto.consts
      iterate 2 (refine .ite (fun _ => ?_) fun _ => ?_; · rcases stk with _ | ⟨v1, _ | ⟨v2, _ | ⟨v3, l⟩⟩⟩ <;> easy)
      iterate 3 (refine .ite (fun _ => ?_) fun _ => ?_; · refine .ite (fun _ => ?_) fun _ => ?_ <;> easy)
      refine .ite (fun _ => ?_) fun _ => ?_
      · rcases stk with _ | ⟨v1, l⟩
        · easy
        · dsimp only
          refine .ite (fun _ => ?_) fun _ => ?_ <;> easy
      refine .ite (fun _ => ?_) fun _ => ?_
      · rcases stk with _ | ⟨v1, l⟩ <;> easy
      refine .ite (fun _ => ?_) fun _ => ?_
      · refine .ite (fun _ => ?_) fun _ => ?_
        · rcases stk.drop a.toNat with _ | ⟨v, l⟩ <;> easy
        · easy
      rcases cmpIOf op with _ | o
      · easy
      · rcases stk with _ | ⟨v1, l⟩ <;> easy
    · dsimp only
      refine .ite (fun _ => ?_) fun _ => ?_ <;> easy
  · rcases a1 with a | a | a | a <;> rcases a2 with b | b | b | b
    all_goals try easy
    dsimp only
    iterate 2 (refine .ite (fun _ => ?_) fun _ => ?_; · rcases stk with _ | ⟨v1, _ | ⟨v2, _ | ⟨v3, l⟩⟩⟩ <;> easy)
    refine .ite (fun ho => ?_) fun _ => ?_
    · rcases stk with _ | ⟨v1, l⟩
      · easy
      rcases hm : K.case1[a.toNat]? with _ | _ | m
      · easy
      · easy
      intro p s' h
      cases h
      refine .inr ⟨a, b, _, rfl, rfl, .inl ⟨ho, m, hm, ?_⟩⟩
      rcases hl : lookup1 K st v1 m with _ | d
      · exact .inl rfl
      · right
        obtain ⟨e, he, rfl⟩ := Option.map_eq_some_iff.1 hl
        exact List.mem_map.2 ⟨e, List.mem_reverse.1 (List.mem_of_find?_eq_some he), rfl⟩
    refine .ite (fun ho => ?_) fun _ => ?_
    · rcases stk with _ | ⟨v1, l⟩
      · easy
      rcases hm : K.case2[a.toNat]? with _ | _ | m
      · easy
      · easy
      dsimp only
      rcases hl : lookup2 v1 m b with _ | d
      · easy
      intro p s' h
      cases h
      refine .inr ⟨a, b, d, rfl, rfl, .inr ⟨ho, m, hm, ?_⟩⟩
      unfold lookup2 at hl
      rcases hf : fixnum? v1 with _ | i
      · rw [hf] at hl; cases hl; exact .inl rfl
      · rw [hf] at hl
        dsimp only at hl
        split at hl
        · exact .inr (List.mem_of_getElem? hl)
        · cases hl; exact .inl rfl
    easy
  · rcases a1 with a | a | a | a <;> try easy
    rcases a2 with b | b | b | b <;> try easy
    rcases a3 with c | c | c | c <;> easy
  · rcases a1 with a | a | a | a <;> try easy
    rcases a2 with b | b | b | b <;> try easy
    rcases a3 with c | c | c | c <;> try easy
    rcases a4 with d | d | d | d <;> try easy
    dsimp only
    refine .ite (fun _ => ?_) fun _ => ?_
    · rcases stk.drop b.toNat with _ | ⟨v, l⟩
      · easy
      · dsimp only
        refine .ite (fun _ => ?_) fun _ => ?_ <;> easy
    · easy
  · rcases a1 with a | a | a | a <;> try easy
    rcases a2 with b | b | b | b <;> try easy
    rcases a3 with c | c | c | c <;> try easy
    rcases a4 with d | d | d | d <;> easy

theorem testOp_goto {imm : Option (BitVec 32)} {s s' : S W} {p : Nat} (h : testOp K op imm pc s = .inl (.goto p s')) :
    ∃ en ∈ K.ex, p = en.dest := by
  obtain ⟨stk, st⟩ := s
  unfold testOp at h
  split at h
  · rcases stk with _ | ⟨v, l⟩ <;> cases h
  split at h
  · rcases stk with _ | ⟨v, l⟩ <;> cases h
  cases imm with
  | none =>
    dsimp only at h
    split at h
    · split at h
      · cases h
      · exact fail_goto (Sum.inl.inj h)
    · cases h
  | some i =>
    dsimp only at h
    split at h
    · split at h
      · cases h
      · exact fail_goto (Sum.inl.inj h)
    · cases h

end Verif.Codegen
