import Verif.Unwind.Tag
import Verif.Codegen.Props
import Verif.Codegen.ShapeProps
/-!
# Instructions with and without the flag
-/
namespace Verif.Unwind
open Verif.Codegen (Id Env World St R S Entry Eff execOp testOp pushE dropE pushB fail truthy)
open Verif.ISeq (Byte Out readOperands vmOperands Operand inst_size)
open Verif.ISeq.Op
open Verif.Methods (Code Tables slots)
open Verif.Value (Val)

variable {W X F : Type} {K : World W X} {send : Id → Val → List Val → St (W × F) → Eff (W × F) X Val} {T : Tables}
  {ex : List Entry} {me : Val}

/-- After a call. -/
def after (K : Env W X) (keep : Bool) (pc : Nat) (st : List Val) (e : Eff W X Val) : ISeq.Conf (S W) (R W X) :=
  (if keep then pushE K pc st e else dropE K pc st e).conf pc

theorem send_ops {op : Byte} (h : op = OPT_SEND ∨ op = OPT_SEND_N) :
    ¬ ISeq.jumps op ∧ ¬ ISeq.leaves op ∧ ¬ ISeq.branches op ∧ ¬ ISeq.branchesI op ∧ inst_size op = some 15 ∧
      vmOperands op = some [.w32, .w16, .w32, .w32] ∧ op ≠ PUSH_NIL ∧ op ≠ PUSH_SELF ∧ op ≠ POP ∧ op ≠ NOT ∧ op ≠ NEG ∧
      op ≠ BNOT ∧ op ≠ CREATE_RANGE ∧ op ≠ GET_INDEX ∧ op ≠ SET_INDEX ∧ op ≠ THROW ∧ Codegen.binOf op = none ∧
      Codegen.cmpOf op = none := by
  rcases h with rfl | rfl <;> decide +kernel

theorem exec_send_any (E : Env W X) {op : Byte} (h : op = OPT_SEND ∨ op = OPT_SEND_N) (m : BitVec 32) (n : BitVec 16)
    (a b : BitVec 32) (pc : Nat) (s : S W) :
    execOp E op [.o32 m, .o16 n, .o32 a, .o32 b] pc s =
      match s.stack.drop n.toNat with
      | recv :: st =>
        let res := E.world.call a m recv (s.stack.take n.toNat).reverse s.st
        if op = OPT_SEND then pushE E (pc + 15) st res else dropE E (pc + 15) st res
      | [] => .halt .stuck := by
  obtain ⟨-, -, -, -, -, -, h1, h2, h3, h4, h5, h6, h7, h8, h9, h10, h11, h12⟩ := send_ops h
  unfold execOp
  simp only [if_neg h1, if_neg h2, if_neg h3, if_neg h4, if_neg h5, if_neg h6, if_neg h7, if_neg h8, if_neg h9, if_neg h10, h11,
    h12, if_pos h]
  rfl

theorem step_send (E : Env W X) {c : ISeq.Code} {p : Nat} {op : Byte} (hop : c[p]? = some op)
    (h : op = OPT_SEND ∨ op = OPT_SEND_N) (s : S W) :
    (ISeq.step (Codegen.machine E) c p s).map (·.2) =
      if p + 15 ≤ c.length then
        some (((match readOperands ((c.drop (p + 1)).take 14) 0 [.w32, .w16, .w32, .w32] with
          | some (args, _) => execOp E op args p s
          | none => .halt .stuck) : Out (S W) (R W X)).conf (p + 15))
      else none := by
  obtain ⟨k1, k2, k3, k4, k5, k6, -⟩ := send_ops h
  unfold ISeq.step
  rw [hop]
  dsimp only
  rw [if_neg k1, if_neg k2, if_neg k3, if_neg k4, k5]
  dsimp only
  split
  · simp only [Codegen.machine, k6, Option.map_some]
    rfl
  · rfl

theorem calling_some {c : ISeq.Code} {p : Nat} {stack : List Val} {keep : Bool} {m : Id} {o : Val} {vs st : List Val}
    (h : calling c p stack = some (keep, m, o, vs, st)) (E : Env W X) (σ : St W) :
    (ISeq.step (Codegen.machine E) c p ⟨stack, σ⟩).map (·.2) = some (after E keep (p + 15) st (E.world.send m o vs σ)) := by
  unfold calling at h
  split at h
  · rename_i op hop
    split at h
    · rename_i hc
      split at h
      · rename_i m' n' a b q hr
        split at h
        · rename_i recv st' hd
          split at h
          swap
          · cases h
          rename_i ha
          subst ha
          cases h
          rw [step_send E hop hc.1, if_pos hc.2, hr]
          dsimp only
          rw [exec_send_any E hc.1]
          dsimp only
          rw [hd]
          dsimp only [after]
          by_cases ho : op = OPT_SEND
          · simp only [if_pos ho, decide_eq_true ho, if_true, World.call]
          · simp only [if_neg ho, decide_eq_false ho, Bool.false_eq_true, if_false, World.call, if_true]
        · cases h
      · cases h
    · cases h
  · cases h

theorem read_send {c : ISeq.Code} {p : Nat} {args : List Operand} {q : Nat}
    (h : readOperands c p [.w32, .w16, .w32, .w32] = some (args, q)) :
    ∃ m n a b, args = [.o32 m, .o16 n, .o32 a, .o32 b] := by
  simp only [readOperands, ISeq.readOperand, Option.bind_eq_bind, Option.pure_def, Option.bind_eq_some_iff,
    Option.some.injEq, Prod.exists, Prod.mk.injEq, Option.map_eq_some_iff] at h
  obtain ⟨_, _, ⟨_, _, -, rfl, rfl⟩, _, _, ⟨_, _, ⟨_, _, -, rfl, rfl⟩, _, _, ⟨_, _, ⟨_, _, -, rfl, rfl⟩, _, _,
    ⟨_, _, ⟨_, _, -, rfl, rfl⟩, _, _, ⟨rfl, rfl⟩, rfl, rfl⟩, rfl, rfl⟩, rfl, rfl⟩, rfl, rfl⟩ := h
  exact ⟨_, _, _, _, rfl⟩

theorem step_tag_ordinary {c : ISeq.Code} {p : Nat} (h : ∀ op, c[p]? = some op → op ≠ OPT_SEND ∧ op ≠ OPT_SEND_N) (b : F) (s : S W) :
    (ISeq.step (Codegen.machine (env (via K send) T ex me)) c p (tagS b s)).map (·.2) =
      (ISeq.step (Codegen.machine (env K T ex me)) c p s).map (fun r => tagC b r.2) := by
  unfold ISeq.step
  rcases hop : c[p]? with _ | op
  · rfl
  obtain ⟨h1, h2⟩ := h op hop
  dsimp only
  split
  · rcases ISeq.readAt32 c (p + 1) with _ | d <;> rfl
  split
  · obtain ⟨stack, σ⟩ := s
    simp only [Codegen.machine, tagS, Option.map_some, tagC]
    rcases stack with _ | ⟨v, st⟩
    · rfl
    · dsimp only
      split
      · rfl
      · split <;> rfl
  split
  · rcases ISeq.readAt32 c (p + 1) with _ | d
    · rfl
    · simp only [Codegen.machine, testOp_tag]
      rcases testOp (env K T ex me) op none p s with o | ⟨t, s'⟩
      · simp only [tagT, Option.map_some, conf_tag]
      · rfl
  split
  · rcases ISeq.readAt32 c (p + 1) with _ | i
    · rfl
    rcases ISeq.readAt32 c (p + 5) with _ | d
    · rfl
    · simp only [Codegen.machine, testOp_tag]
      rcases testOp (env K T ex me) op (some i) p s with o | ⟨t, s'⟩
      · simp only [tagT, Option.map_some, conf_tag]
      · rfl
  rcases inst_size op with _ | sz
  · rfl
  dsimp only
  split
  · simp only [Codegen.machine, Option.map_some]
    rcases vmOperands op with _ | ws
    · rfl
    dsimp only
    rcases readOperands (List.take (sz - 1) (List.drop (p + 1) c)) 0 ws with _ | ⟨args, q⟩
    · rfl
    · simp only [execOp_tag h1 h2, conf_tag]
  · rfl

theorem calling_none {c : ISeq.Code} {p : Nat} {s : S W} (h : calling c p s.stack = none) (b : F) :
    (ISeq.step (Codegen.machine (env (via K send) T ex me)) c p (tagS b s)).map (·.2) =
      (ISeq.step (Codegen.machine (env K T ex me)) c p s).map (fun r => tagC b r.2) := by
  by_cases hop : ∃ op, c[p]? = some op ∧ (op = OPT_SEND ∨ op = OPT_SEND_N)
  · obtain ⟨op, hop, hs⟩ := hop
    have e2 : (ISeq.step (Codegen.machine (env K T ex me)) c p s).map (fun r => tagC b r.2) =
        ((ISeq.step (Codegen.machine (env K T ex me)) c p s).map (·.2)).map (tagC b) := by rw [Option.map_map]; rfl
    rw [e2, step_send _ hop hs, step_send _ hop hs]
    unfold calling at h
    rw [hop] at h
    dsimp only at h
    split
    · rename_i hle
      rw [if_pos ⟨hs, hle⟩] at h
      rcases hr : readOperands (List.take 14 (List.drop (p + 1) c)) 0 [.w32, .w16, .w32, .w32] with _ | ⟨args, q⟩
      · rfl
      · obtain ⟨m, n, a, a', rfl⟩ := read_send hr
        rw [hr] at h
        dsimp only at h ⊢
        rw [exec_send_any _ hs, exec_send_any _ hs]
        rcases hd : s.stack.drop n.toNat with _ | ⟨recv, st⟩
        · simp only [tagS, hd]; rfl
        · rw [hd] at h
          dsimp only at h
          split at h
          · cases h
          rename_i ha
          simp only [tagS, hd, World.call, if_neg ha]
          rw [show (env (via K send) T ex me).world.sendB a m recv (List.take n.toNat s.stack).reverse (tag b s.st) =
            tagE b (K.sendB a m recv (List.take n.toNat s.stack).reverse s.st) from rfl, Option.map_some, ← conf_tag]
          split
          · rw [pushE_tag]; rfl
          · rw [dropE_tag]; rfl
    · rfl
  · exact step_tag_ordinary (fun op ho => ⟨fun h => hop ⟨op, ho, .inl h⟩, fun h => hop ⟨op, ho, .inr h⟩⟩) b s

/-- A call of another method than those of the program. -/
theorem calling_other {c : ISeq.Code} {p : Nat} {s : S W} {keep : Bool} {m : Id} {o : Val} {vs st : List Val}
    (h : calling c p s.stack = some (keep, m, o, vs, st)) (b : F)
    (hs : send m o vs (tag b s.st) = through (K.send m o vs) (tag b s.st)) :
    (ISeq.step (Codegen.machine (env (via K send) T ex me)) c p (tagS b s)).map (·.2) =
      (ISeq.step (Codegen.machine (env K T ex me)) c p s).map (fun r => tagC b r.2) := by
  have e2 : (ISeq.step (Codegen.machine (env K T ex me)) c p s).map (fun r => tagC b r.2) =
      ((ISeq.step (Codegen.machine (env K T ex me)) c p s).map (·.2)).map (tagC b) := by rw [Option.map_map]; rfl
  obtain ⟨stack, σ⟩ := s
  rw [e2, calling_some h, tagS, calling_some h, Option.map_some]
  dsimp only [after]
  rw [show (env (via K send) T ex me).world.send = send from rfl, hs, through_tag, ← conf_tag]
  cases keep
  · simp only [Bool.false_eq_true, if_false, dropE_tag]
    rfl
  · simp only [if_true, pushE_tag]
    rfl

end Verif.Unwind
