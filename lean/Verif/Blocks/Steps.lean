import Verif.Blocks.Tag
import Verif.Unwind.Steps
/-!
# Instructions, with and without what is added to the state
-/
namespace Verif.Blocks
open Verif.Codegen (Id Env World St R S Entry Eff execOp testOp pushE dropE pushB fail truthy)
open Verif.ISeq (Byte Out readOperands vmOperands Operand inst_size)
open Verif.ISeq.Op
open Verif.Methods (Code Tables slots)
open Verif.Unwind (env tag untag through flagged tagS tagR tagO tagC tagE tagT untag_tag tag_flag through_tag tag_untag ite_tag
  conf_tag after step_send exec_send_any read_send)
open Verif.Value (Val)

variable {W X F : Type} {K : World W X} {send : Id → Val → List Val → St (W × F) → Eff (W × F) X Val}
  {sendB : BitVec 32 → Id → Val → List Val → St (W × F) → Eff (W × F) X Val}
  {yld : List Val → St (W × F) → Eff (W × F) X Val} {T : Tables} {ex : List Entry} {me : Val}

theorem calling_some {c : ISeq.Code} {p : Nat} {stack : List Val} {keep : Bool} {a : BitVec 32} {m : Id} {o : Val} {vs st : List Val}
    (h : calling c p stack = some (keep, a, m, o, vs, st)) (E : Env W X) (σ : St W) :
    (ISeq.step (Codegen.machine E) c p ⟨stack, σ⟩).map (·.2) = some (after E keep (p + 15) st (E.world.call a m o vs σ)) := by
  unfold calling at h
  split at h
  · rename_i op hop
    split at h
    · rename_i hc
      split at h
      · rename_i m' n' a b q hr
        split at h
        · rename_i recv st' hd
          cases h
          rw [step_send E hop hc.1, if_pos hc.2, hr]
          dsimp only
          rw [exec_send_any E hc.1]
          dsimp only
          rw [hd]
          dsimp only [after]
          by_cases ho : op = OPT_SEND
          · simp only [if_pos ho, decide_eq_true ho, if_true]
          · simp only [if_neg ho, decide_eq_false ho, Bool.false_eq_true, if_false]
        · cases h
      · cases h
    · cases h
  · cases h

theorem yield_op : ¬ ISeq.jumps YIELD ∧ ¬ ISeq.leaves YIELD ∧ ¬ ISeq.branches YIELD ∧ ¬ ISeq.branchesI YIELD ∧
    inst_size YIELD = some 5 ∧ vmOperands YIELD = some [.w32] := by decide +kernel

theorem step_yield (E : Env W X) {c : ISeq.Code} {p : Nat} (hop : c[p]? = some YIELD) (s : S W) :
    (ISeq.step (Codegen.machine E) c p s).map (·.2) =
      if p + 5 ≤ c.length then
        some (((match readOperands ((c.drop (p + 1)).take 4) 0 [.w32] with
          | some (args, _) => execOp E YIELD args p s
          | none => .halt .stuck) : Out (S W) (R W X)).conf (p + 5))
      else none := by
  obtain ⟨k1, k2, k3, k4, k5, k6⟩ := yield_op
  unfold ISeq.step
  rw [hop]
  dsimp only
  rw [if_neg k1, if_neg k2, if_neg k3, if_neg k4, k5]
  dsimp only
  split
  · simp only [Codegen.machine, k6, Option.map_some]
    rfl
  · rfl

theorem exec_yield_any (E : Env W X) (n : BitVec 32) (pc : Nat) (s : S W) :
    execOp E YIELD [.o32 n] pc s =
      if n.toNat ≤ s.stack.length then
        pushE E (pc + 5) (s.stack.drop n.toNat) (E.world.yield_ (s.stack.take n.toNat).reverse s.st)
      else .halt .stuck := rfl

theorem read_yield {c : ISeq.Code} {p : Nat} {args : List Operand} {q : Nat} (h : readOperands c p [.w32] = some (args, q)) :
    ∃ n, args = [.o32 n] := by
  simp only [readOperands, ISeq.readOperand, Option.bind_eq_bind, Option.pure_def, Option.bind_eq_some_iff,
    Option.some.injEq, Prod.exists, Prod.mk.injEq, Option.map_eq_some_iff] at h
  obtain ⟨_, _, ⟨_, _, -, rfl, rfl⟩, _, _, ⟨rfl, rfl⟩, rfl, rfl⟩ := h
  exact ⟨_, rfl⟩

theorem yielding_some {c : ISeq.Code} {p : Nat} {stack vs st : List Val}
    (h : yielding c p stack = some (vs, st)) (E : Env W X) (σ : St W) :
    (ISeq.step (Codegen.machine E) c p ⟨stack, σ⟩).map (·.2) = some (after E true (p + 5) st (E.world.yield_ vs σ)) := by
  unfold yielding at h
  split at h
  · rename_i op hop
    split at h
    · rename_i hc
      obtain ⟨rfl, hc⟩ := hc
      split at h
      · rename_i n q hr
        split at h
        · rename_i hn
          cases h
          rw [step_yield E hop, if_pos hc, hr]
          dsimp only
          rw [exec_yield_any E, if_pos hn]
          rfl
        · cases h
      · cases h
    · cases h
  · cases h

theorem step_tag_ordinary {c : ISeq.Code} {p : Nat} (h : ∀ op, c[p]? = some op → op ≠ OPT_SEND ∧ op ≠ OPT_SEND_N ∧ op ≠ YIELD) (b : F) (s : S W) :
    (ISeq.step (Codegen.machine (env (via K send sendB yld) T ex me)) c p (tagS b s)).map (·.2) =
      (ISeq.step (Codegen.machine (env K T ex me)) c p s).map (fun r => tagC b r.2) := by
  unfold ISeq.step
  rcases hop : c[p]? with _ | op
  · rfl
  obtain ⟨h1, h2, h3⟩ := h op hop
  dsimp only
  split
  · rcases ISeq.readAt32 c (p + 1) with _ | d <;> rfl
  split
  · obtain ⟨stack, σ⟩ := s
    simp only [Codegen.machine, tagS, Option.map_some, tagC]
    rcases stack with _ | ⟨v, st⟩
    · rfl
    · dsimp only
      split
      · rfl
      · split <;> rfl
  split
  · rcases ISeq.readAt32 c (p + 1) with _ | d
    · rfl
    · simp only [Codegen.machine, testOp_tag]
      rcases testOp (env K T ex me) op none p s with o | ⟨t, s'⟩
      · simp only [tagT, Option.map_some, conf_tag]
      · rfl
  split
  · rcases ISeq.readAt32 c (p + 1) with _ | i
    · rfl
    rcases ISeq.readAt32 c (p + 5) with _ | d
    · rfl
    · simp only [Codegen.machine, testOp_tag]
      rcases testOp (env K T ex me) op (some i) p s with o | ⟨t, s'⟩
      · simp only [tagT, Option.map_some, conf_tag]
      · rfl
  rcases inst_size op with _ | sz
  · rfl
  dsimp only
  split
  · simp only [Codegen.machine, Option.map_some]
    rcases vmOperands op with _ | ws
    · rfl
    dsimp only
    rcases readOperands (List.take (sz - 1) (List.drop (p + 1) c)) 0 ws with _ | ⟨args, q⟩
    · rfl
    · simp only [execOp_tag h1 h2 h3, conf_tag]
  · rfl


theorem plain_tag {c : ISeq.Code} {p : Nat} {s : S W} (h : calling c p s.stack = none) (h' : yielding c p s.stack = none) (b : F) :
    (ISeq.step (Codegen.machine (env (via K send sendB yld) T ex me)) c p (tagS b s)).map (·.2) =
      (ISeq.step (Codegen.machine (env K T ex me)) c p s).map (fun r => tagC b r.2) := by
  have e2 : (ISeq.step (Codegen.machine (env K T ex me)) c p s).map (fun r => tagC b r.2) =
      ((ISeq.step (Codegen.machine (env K T ex me)) c p s).map (·.2)).map (tagC b) := by rw [Option.map_map]; rfl
  by_cases hop : ∃ op, c[p]? = some op ∧ (op = OPT_SEND ∨ op = OPT_SEND_N)
  · obtain ⟨op, hop, hs⟩ := hop
    rw [e2, step_send _ hop hs, step_send _ hop hs]
    unfold calling at h
    rw [hop] at h
    dsimp only at h
    split
    · rename_i hle
      rw [if_pos ⟨hs, hle⟩] at h
      rcases hr : readOperands (List.take 14 (List.drop (p + 1) c)) 0 [.w32, .w16, .w32, .w32] with _ | ⟨args, q⟩
      · rfl
      · obtain ⟨m, n, a, a', rfl⟩ := read_send hr
        rw [hr] at h
        dsimp only at h ⊢
        rw [exec_send_any _ hs, exec_send_any _ hs]
        rcases hd : s.stack.drop n.toNat with _ | ⟨recv, st⟩
        · simp only [tagS, hd]; rfl
        · rw [hd] at h; cases h
    · rfl
  by_cases hy : c[p]? = some YIELD
  · rw [e2, step_yield _ hy, step_yield _ hy]
    unfold yielding at h'
    rw [hy] at h'
    dsimp only at h'
    split
    · rename_i hle
      rw [if_pos ⟨rfl, hle⟩] at h'
      rcases hr : readOperands (List.take 4 (List.drop (p + 1) c)) 0 [.w32] with _ | ⟨args, q⟩
      · rfl
      · obtain ⟨n, rfl⟩ := read_yield hr
        rw [hr] at h'
        dsimp only at h' ⊢
        rw [exec_yield_any, exec_yield_any]
        split at h'
        · cases h'
        · rename_i hn
          rw [if_neg hn, if_neg (by exact hn)]
          rfl
    · rfl
  · exact step_tag_ordinary (fun op ho => ⟨fun h => hop ⟨op, ho, .inl h⟩, fun h => hop ⟨op, ho, .inr h⟩, fun h => hy (h ▸ ho)⟩) b s

/-- A call of another method than those of the program. -/
theorem calling_other {c : ISeq.Code} {p : Nat} {s : S W} {keep : Bool} {a : BitVec 32} {m : Id} {o : Val} {vs st : List Val}
    (h : calling c p s.stack = some (keep, a, m, o, vs, st)) (b : F)
    (hs : (via K send sendB yld).call a m o vs (tag b s.st) = through (K.call a m o vs) (tag b s.st)) :
    (ISeq.step (Codegen.machine (env (via K send sendB yld) T ex me)) c p (tagS b s)).map (·.2) =
      (ISeq.step (Codegen.machine (env K T ex me)) c p s).map (fun r => tagC b r.2) := by
  have e2 : (ISeq.step (Codegen.machine (env K T ex me)) c p s).map (fun r => tagC b r.2) =
      ((ISeq.step (Codegen.machine (env K T ex me)) c p s).map (·.2)).map (tagC b) := by rw [Option.map_map]; rfl
  obtain ⟨stack, σ⟩ := s
  rw [e2, calling_some h, tagS, calling_some h, Option.map_some]
  dsimp only [after]
  rw [show (env (via K send sendB yld) T ex me).world = via K send sendB yld from rfl, hs, through_tag, ← conf_tag]
  cases keep
  · simp only [Bool.false_eq_true, if_false, dropE_tag]
    rfl
  · simp only [if_true, pushE_tag]
    rfl

end Verif.Blocks
