import Verif.Blocks.Model
import Verif.Unwind.Tag
/-!
# What is added to the state does not matter to instructions other than calls and `yield`

As `Verif.Unwind.Tag`, with more instructions left out.
-/
namespace Verif.Blocks
open Verif.Codegen (Id Env World St R S Entry Eff execOp testOp pushE dropE pushB fail truthy)
open Verif.ISeq (Byte Out)
open Verif.ISeq.Op
open Verif.Methods (Code Tables slots)
open Verif.Unwind (env tag untag through flagged tagS tagR tagO tagC tagE tagT untag_tag tag_flag through_tag tag_untag ite_tag
  conf_tag)
open Verif.Value (Val)

variable {W X F : Type}

/-- The flagged world, with any calls and any `yield`. -/
abbrev via (K : World W X) (send : Id → Val → List Val → St (W × F) → Eff (W × F) X Val)
    (sendB : BitVec 32 → Id → Val → List Val → St (W × F) → Eff (W × F) X Val)
    (yld : List Val → St (W × F) → Eff (W × F) X Val) : World (W × F) X :=
  { flagged K with send := send, sendB := sendB, yield_ := yld }

variable {K : World W X} {send : Id → Val → List Val → St (W × F) → Eff (W × F) X Val}
  {sendB : BitVec 32 → Id → Val → List Val → St (W × F) → Eff (W × F) X Val}
  {yld : List Val → St (W × F) → Eff (W × F) X Val} {T : Tables} {ex : List Entry} {me : Val}

theorem fail_tag (pc : Nat) (x : X) (b : F) (σ : St W) :
    fail (env (via K send sendB yld) T ex me) pc x (tag b σ) = tagO b (fail (env K T ex me) pc x σ) := by
  unfold fail
  dsimp only [env]
  cases ex.find? (·.include pc) with
  | none => rfl
  | some en => rfl

theorem pushE_tag (pc : Nat) (st : List Val) (b : F) (e : Eff W X Val) :
    pushE (env (via K send sendB yld) T ex me) pc st (tagE b e) = tagO b (pushE (env K T ex me) pc st e) := by
  rcases e with ⟨_ | v, σ⟩
  · exact fail_tag _ _ _ _
  · rfl

theorem dropE_tag {α : Type} (pc : Nat) (st : List Val) (b : F) (e : Eff W X α) :
    dropE (env (via K send sendB yld) T ex me) pc st (tagE b e) = tagO b (dropE (env K T ex me) pc st e) := by
  rcases e with ⟨_ | v, σ⟩
  · exact fail_tag _ _ _ _
  · rfl

theorem pushB_tag (pc : Nat) (st : List Val) (b : F) (e : Eff W X Bool) :
    pushB (env (via K send sendB yld) T ex me) pc st (tagE b e) = tagO b (pushB (env K T ex me) pc st e) := by
  rcases e with ⟨_ | v, σ⟩
  · exact fail_tag _ _ _ _
  · rfl

theorem constVal_tag (b : F) (σ : St W) (cv : Codegen.Const) :
    Codegen.constVal (env (via K send sendB yld) T ex me) (tag b σ) cv = tagE b (Codegen.constVal (env K T ex me) σ cv) := by
  cases cv <;> rfl

theorem execOp_tag {op : Byte} (h1 : op ≠ OPT_SEND) (h2 : op ≠ OPT_SEND_N) (h3 : op ≠ YIELD) (args : List ISeq.Operand) (pc : Nat) (b : F)
    (s : S W) :
    execOp (env (via K send sendB yld) T ex me) op args pc (tagS b s) = tagO b (execOp (env K T ex me) op args pc s) := by
  obtain ⟨stack, σ⟩ := s
  unfold execOp
  dsimp only [tagS]
  iterate 2 refine ite_tag (fun _ => rfl) (fun _ => ?_)
  iterate 2
    refine ite_tag (fun _ => ?_) (fun _ => ?_)
    · rcases stack with _ | ⟨v, st⟩ <;> rfl
  iterate 2
    refine ite_tag (fun _ => ?_) (fun _ => ?_)
    · rcases stack with _ | ⟨v, st⟩
      · rfl
      · exact pushE_tag _ _ _ _
  refine ite_tag (fun _ => ?_) (fun _ => ?_)
  · rcases stack with _ | ⟨v, _ | ⟨v2, _ | ⟨v3, st⟩⟩⟩
    · rfl
    · rfl
    · rfl
    · exact pushE_tag _ _ _ _
  refine ite_tag (fun _ => ?_) (fun _ => ?_)
  · rcases stack with _ | ⟨v, _ | ⟨v2, st⟩⟩
    · rfl
    · rfl
    · exact pushE_tag _ _ _ _
  refine ite_tag (fun _ => ?_) (fun _ => ?_)
  · rcases stack with _ | ⟨v, _ | ⟨v2, _ | ⟨v3, st⟩⟩⟩
    · rfl
    · rfl
    · rfl
    · exact dropE_tag _ _ _ _
  refine ite_tag (fun _ => ?_) (fun _ => ?_)
  · rcases stack with _ | ⟨v, st⟩
    · rfl
    · exact fail_tag _ _ _ _
  rcases Codegen.binOf op with _ | o
  swap
  · rcases stack with _ | ⟨v, _ | ⟨v2, st⟩⟩
    · rfl
    · rfl
    · exact pushE_tag _ _ _ _
  dsimp only
  rcases Codegen.cmpOf op with _ | o
  swap
  · rcases stack with _ | ⟨v, _ | ⟨v2, st⟩⟩
    · rfl
    · rfl
    · exact pushB_tag _ _ _ _
  dsimp only
  rcases args with _ | ⟨a1, as⟩
  · rfl
  rcases a1 with a | a | a | a
  · rcases as with _ | ⟨a2, as⟩ <;> rfl
  · rcases as with _ | ⟨a2, as⟩ <;> rfl
  · rcases as with _ | ⟨a2, as⟩
    · dsimp only
      iterate 2
        refine ite_tag (fun _ => ?_) (fun _ => ?_)
        · rcases stack with _ | ⟨v, st⟩
          · rfl
          · exact pushE_tag _ _ _ _
      refine ite_tag (fun _ => ?_) (fun _ => ?_)
      · rcases stack with _ | ⟨v, st⟩ <;> rfl
      refine ite_tag (fun _ => rfl) (fun _ => ?_)
      refine ite_tag (fun _ => ?_) (fun _ => ?_)
      · rcases stack with _ | ⟨v, st⟩ <;> rfl
      refine ite_tag (fun _ => rfl) (fun _ => ?_)
      refine ite_tag (fun _ => ?_) (fun _ => ?_)
      · rcases stack with _ | ⟨v, st⟩ <;> rfl
      refine ite_tag (fun _ => rfl) (fun _ => ?_)
      refine ite_tag (fun _ => pushE_tag _ _ _ _) (fun _ => ?_)
      refine ite_tag (fun _ => ?_) (fun _ => ?_)
      · dsimp only [env]
        rcases T.consts[a.toNat]? with _ | cv
        · rfl
        · cases cv <;> rfl
      refine ite_tag (fun _ => ?_) (fun _ => ?_)
      · rcases stack with _ | ⟨v, st⟩
        · rfl
        · exact pushE_tag _ _ _ _
      refine ite_tag (fun _ => ?_) (fun _ => ?_)
      · rcases stack with _ | ⟨v, _ | ⟨v2, st⟩⟩
        · rfl
        · rfl
        · exact dropE_tag _ _ _ _
      refine ite_tag (fun _ => ?_) (fun _ => ?_)
      · exact ite_tag (fun _ => rfl) (fun _ => rfl)
      refine ite_tag (fun _ => ?_) (fun _ => ?_)
      · exact absurd ‹_› h3
      refine ite_tag (fun _ => ?_) (fun _ => ?_)
      · exact ite_tag (fun _ => rfl) (fun _ => rfl)
      refine ite_tag (fun _ => ?_) (fun _ => ?_)
      · rcases stack with _ | ⟨v, st⟩
        · rfl
        · exact ite_tag (fun _ => rfl) (fun _ => rfl)
      refine ite_tag (fun _ => ?_) (fun _ => ?_)
      · rcases stack with _ | ⟨v, st⟩ <;> rfl
      refine ite_tag (fun _ => ?_) (fun _ => ?_)
      · refine ite_tag (fun _ => ?_) (fun _ => rfl)
        rcases stack.drop a.toNat with _ | ⟨v, st⟩ <;> rfl
      rcases Codegen.cmpIOf op with _ | o
      · rfl
      · rcases stack with _ | ⟨v, st⟩
        · rfl
        · exact pushB_tag _ _ _ _
    · rcases a2 with a2 | a2 | a2 | a2
      · rcases as with _ | ⟨a3, as⟩ <;> rfl
      · rcases as with _ | ⟨a3, _ | ⟨a4, _ | ⟨a5, as⟩⟩⟩
        · rfl
        · cases a3 <;> rfl
        · cases a3 <;> cases a4 <;> first | rfl | skip
          dsimp only
          rw [if_neg (by rintro (h | h) <;> contradiction), if_neg (by rintro (h | h) <;> contradiction)]
          rfl
        · cases a3 <;> cases a4 <;> rfl
      · rcases as with _ | ⟨a3, as⟩
        · dsimp only
          refine ite_tag (fun _ => ?_) (fun _ => ?_)
          · rcases stack with _ | ⟨v, st⟩ <;> rfl
          refine ite_tag (fun _ => rfl) (fun _ => ?_)
          refine ite_tag (fun _ => ?_) (fun _ => ?_)
          · dsimp only [env]
            rcases stack with _ | ⟨v, st⟩
            · rfl
            · rcases T.case1[a.toNat]? with _ | _ | m <;> rfl
          refine ite_tag (fun _ => ?_) (fun _ => rfl)
          dsimp only [env]
          rcases stack with _ | ⟨v, st⟩
          · rfl
          · rcases T.case2[a.toNat]? with _ | _ | m
            · rfl
            · rfl
            · dsimp only
              rcases Codegen.lookup2 v m a2 with _ | d <;> rfl
        · rfl
      · rcases as with _ | ⟨a3, as⟩ <;> rfl
  · rcases as with _ | ⟨a2, as⟩
    · dsimp only
      exact ite_tag (fun _ => rfl) (fun _ => rfl)
    · rfl

theorem testOp_tag (op : Byte) (imm : Option (BitVec 32)) (pc : Nat) (b : F) (s : S W) :
    testOp (env (via K send sendB yld) T ex me) op imm pc (tagS b s) = tagT b (testOp (env K T ex me) op imm pc s) := by
  obtain ⟨stack, σ⟩ := s
  unfold testOp
  dsimp only [tagS]
  split
  · rcases stack with _ | ⟨v, st⟩ <;> rfl
  split
  · rcases stack with _ | ⟨v, st⟩ <;> rfl
  rcases imm with _ | i
  · dsimp only
    rcases Codegen.jfOf op with _ | o
    · rfl
    · rcases stack with _ | ⟨v, _ | ⟨v2, st⟩⟩
      · rfl
      · rfl
      · dsimp only
        rw [show (env (via K send sendB yld) T ex me).world.cmp o v2 v (tag b σ) = tagE b (K.cmp o v2 v σ) from rfl,
          show (env K T ex me).world.cmp o v2 v σ = K.cmp o v2 v σ from rfl]
        rcases K.cmp o v2 v σ with ⟨_ | t, σ'⟩
        · exact congrArg Sum.inl (fail_tag _ _ _ _)
        · rfl
  · dsimp only
    rcases Codegen.jfIOf op with _ | o
    · rfl
    · rcases stack with _ | ⟨v, st⟩
      · rfl
      · dsimp only
        rw [show (env (via K send sendB yld) T ex me).world.cmpI o v i (tag b σ) = tagE b (K.cmpI o v i σ) from rfl,
          show (env K T ex me).world.cmpI o v i σ = K.cmpI o v i σ from rfl]
        rcases K.cmpI o v i σ with ⟨_ | t, σ'⟩
        · exact congrArg Sum.inl (fail_tag _ _ _ _)
        · rfl


end Verif.Blocks
