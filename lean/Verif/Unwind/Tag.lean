import Verif.Unwind.Spec
import Verif.Unwind.Model
/-!
# The flag does not matter to instructions
-/
namespace Verif.Unwind
open Verif.Codegen (Id Env World St R S Entry Eff execOp testOp pushE dropE pushB fail truthy)
open Verif.ISeq (Byte Out)
open Verif.ISeq.Op
open Verif.Methods (Code Tables slots)
open Verif.Value (Val)

variable {W X F : Type}

def tagS (b : F) (s : S W) : S (W × F) := ⟨s.stack, tag b s.st⟩

def tagR (b : F) : R W X → R (W × F) X
  | .ret v σ => .ret v (tag b σ)
  | .mret v σ => .mret v (tag b σ)
  | .brk v σ => .brk v (tag b σ)
  | .err x σ => .err x (tag b σ)
  | .stuck => .stuck

def tagO (b : F) : Out (S W) (R W X) → Out (S (W × F)) (R (W × F) X)
  | .next s => .next (tagS b s)
  | .goto p s => .goto p (tagS b s)
  | .halt r => .halt (tagR b r)

def tagC (b : F) : ISeq.Conf (S W) (R W X) → ISeq.Conf (S (W × F)) (R (W × F) X)
  | .at p s => .at p (tagS b s)
  | .done r => .done (tagR b r)

def tagE {α : Type} (b : F) (e : α × St W) : α × St (W × F) := (e.1, tag b e.2)

@[simp] theorem untag_tag (b : F) (σ : St W) : untag (tag b σ) = σ := rfl
@[simp] theorem tag_flag (b : F) (σ : St W) : (tag b σ).w.2 = b := rfl
@[simp] theorem through_tag {α : Type} (f : St W → α × St W) (b : F) (σ : St W) : through f (tag b σ) = tagE b (f σ) := rfl
theorem tag_untag (σ : St (W × F)) : tag σ.w.2 (untag σ) = σ := rfl

/-- The flagged world, with any calls. -/
abbrev via (K : World W X) (send : Id → Val → List Val → St (W × F) → Eff (W × F) X Val) : World (W × F) X :=
  { flagged K with send := send }

variable {K : World W X} {send : Id → Val → List Val → St (W × F) → Eff (W × F) X Val} {T : Tables} {ex : List Entry} {me : Val}

theorem fail_tag (pc : Nat) (x : X) (b : F) (σ : St W) :
    fail (env (via K send) T ex me) pc x (tag b σ) = tagO b (fail (env K T ex me) pc x σ) := by
  unfold fail
  dsimp only [env]
  cases ex.find? (·.include pc) with
  | none => rfl
  | some en => rfl

theorem pushE_tag (pc : Nat) (st : List Val) (b : F) (e : Eff W X Val) :
    pushE (env (via K send) T ex me) pc st (tagE b e) = tagO b (pushE (env K T ex me) pc st e) := by
  rcases e with ⟨_ | v, σ⟩
  · exact fail_tag _ _ _ _
  · rfl

theorem dropE_tag {α : Type} (pc : Nat) (st : List Val) (b : F) (e : Eff W X α) :
    dropE (env (via K send) T ex me) pc st (tagE b e) = tagO b (dropE (env K T ex me) pc st e) := by
  rcases e with ⟨_ | v, σ⟩
  · exact fail_tag _ _ _ _
  · rfl

theorem pushB_tag (pc : Nat) (st : List Val) (b : F) (e : Eff W X Bool) :
    pushB (env (via K send) T ex me) pc st (tagE b e) = tagO b (pushB (env K T ex me) pc st e) := by
  rcases e with ⟨_ | v, σ⟩
  · exact fail_tag _ _ _ _
  · rfl

theorem constVal_tag (b : F) (σ : St W) (cv : Codegen.Const) :
    Codegen.constVal (env (via K send) T ex me) (tag b σ) cv = tagE b (Codegen.constVal (env K T ex me) σ cv) := by
  cases cv <;> rfl

theorem ite_tag {c : Prop} [Decidable c] {b : F} {p q : Out (S W) (R W X)} {p' q' : Out (S (W × F)) (R (W × F) X)}
    (hp : c → p' = tagO b p) (hq : ¬ c → q' = tagO b q) : (if c then p' else q') = tagO b (if c then p else q) := by
  split
  · exact hp ‹_›
  · exact hq ‹_›

theorem execOp_tag {op : Byte} (h1 : op ≠ OPT_SEND) (h2 : op ≠ OPT_SEND_N) (args : List ISeq.Operand) (pc : Nat) (b : F)
    (s : S W) :
    execOp (env (via K send) T ex me) op args pc (tagS b s) = tagO b (execOp (env K T ex me) op args pc s) := by
  obtain ⟨stack, σ⟩ := s
  unfold execOp
  dsimp only [tagS]
  iterate 2 refine ite_tag (fun _ => rfl) (fun _ => ?_)
  iterate 2
    refine ite_tag (fun _ => ?_) (fun _ => ?_)
    · rcases stack with _ | ⟨v, st⟩ <;> rfl
  iterate 2
    refine ite_tag (fun _ => ?_) (fun _ => ?_)
    · rcases stack with _ | ⟨v, st⟩
      · rfl
      · exact pushE_tag _ _ _ _
  refine ite_tag (fun _ => ?_) (fun _ => ?_)
  · rcases stack with _ | ⟨v, _ | ⟨v2, _ | ⟨v3, st⟩⟩⟩
    · rfl
    · rfl
    · rfl
    · exact pushE_tag _ _ _ _
  refine ite_tag (fun _ => ?_) (fun _ => ?_)
  · rcases stack with _ | ⟨v, _ | ⟨v2, st⟩⟩
    · rfl
    · rfl
    · exact pushE_tag _ _ _ _
  refine ite_tag (fun _ => ?_) (fun _ => ?_)
  · rcases stack with _ | ⟨v, _ | ⟨v2, _ | ⟨v3, st⟩⟩⟩
    · rfl
    · rfl
    · rfl
    · exact dropE_tag _ _ _ _
  refine ite_tag (fun _ => ?_) (fun _ => ?_)
  · rcases stack with _ | ⟨v, st⟩
    · rfl
    · exact fail_tag _ _ _ _
  rcases Codegen.binOf op with _ | o
  swap
  · rcases stack with _ | ⟨v, _ | ⟨v2, st⟩⟩
    · rfl
    · rfl
    · exact pushE_tag _ _ _ _
  dsimp only
  rcases Codegen.cmpOf op with _ | o
  swap
  · rcases stack with _ | ⟨v, _ | ⟨v2, st⟩⟩
    · rfl
    · rfl
    · exact pushB_tag _ _ _ _
  dsimp only
  rcases args with _ | ⟨a1, as⟩
  · rfl
  rcases a1 with a | a | a | a
  · rcases as with _ | ⟨a2, as⟩ <;> rfl
  · rcases as with _ | ⟨a2, as⟩ <;> rfl
  · rcases as with _ | ⟨a2, as⟩
    · dsimp only
      iterate 2
        refine ite_tag (fun _ => ?_) (fun _ => ?_)
        · rcases stack with _ | ⟨v, st⟩
          · rfl
          · exact pushE_tag _ _ _ _
      refine ite_tag (fun _ => ?_) (fun _ => ?_)
      · rcases stack with _ | ⟨v, st⟩ <;> rfl
      refine ite_tag (fun _ => rfl) (fun _ => ?_)
      refine ite_tag (fun _ => ?_) (fun _ => ?_)
      · rcases stack with _ | ⟨v, st⟩ <;> rfl
      refine ite_tag (fun _ => rfl) (fun _ => ?_)
      refine ite_tag (fun _ => ?_) (fun _ => ?_)
      · rcases stack with _ | ⟨v, st⟩ <;> rfl
      refine ite_tag (fun _ => rfl) (fun _ => ?_)
      refine ite_tag (fun _ => pushE_tag _ _ _ _) (fun _ => ?_)
      refine ite_tag (fun _ => ?_) (fun _ => ?_)
      · dsimp only [env]
        rcases T.consts[a.toNat]? with _ | cv
        · rfl
        · cases cv <;> rfl
      refine ite_tag (fun _ => ?_) (fun _ => ?_)
      · rcases stack with _ | ⟨v, st⟩
        · rfl
        · exact pushE_tag _ _ _ _
      refine ite_tag (fun _ => ?_) (fun _ => ?_)
      · rcases stack with _ | ⟨v, _ | ⟨v2, st⟩⟩
        · rfl
        · rfl
        · exact dropE_tag _ _ _ _
      refine ite_tag (fun _ => ?_) (fun _ => ?_)
      · exact ite_tag (fun _ => rfl) (fun _ => rfl)
      refine ite_tag (fun _ => ?_) (fun _ => ?_)
      · exact ite_tag (fun _ => pushE_tag _ _ _ _) (fun _ => rfl)
      refine ite_tag (fun _ => ?_) (fun _ => ?_)
      · exact ite_tag (fun _ => rfl) (fun _ => rfl)
      refine ite_tag (fun _ => ?_) (fun _ => ?_)
      · rcases stack with _ | ⟨v, st⟩
        · rfl
        · exact ite_tag (fun _ => rfl) (fun _ => rfl)
      refine ite_tag (fun _ => ?_) (fun _ => ?_)
      · rcases stack with _ | ⟨v, st⟩ <;> rfl
      refine ite_tag (fun _ => ?_) (fun _ => ?_)
      · refine ite_tag (fun _ => ?_) (fun _ => rfl)
        rcases stack.drop a.toNat with _ | ⟨v, st⟩ <;> rfl
      rcases Codegen.cmpIOf op with _ | o
      · rfl
      · rcases stack with _ | ⟨v, st⟩
        · rfl
        · exact pushB_tag _ _ _ _
    · rcases a2 with a2 | a2 | a2 | a2
      · rcases as with _ | ⟨a3, as⟩ <;> rfl
      · rcases as with _ | ⟨a3, _ | ⟨a4, _ | ⟨a5, as⟩⟩⟩
        · rfl
        · cases a3 <;> rfl
        · cases a3 <;> cases a4 <;> first | rfl | skip
          dsimp only
          rw [if_neg (by rintro (h | h) <;> contradiction), if_neg (by rintro (h | h) <;> contradiction)]
          rfl
        · cases a3 <;> cases a4 <;> rfl
      · rcases as with _ | ⟨a3, as⟩
        · dsimp only
          refine ite_tag (fun _ => ?_) (fun _ => ?_)
          · rcases stack with _ | ⟨v, st⟩ <;> rfl
          refine ite_tag (fun _ => rfl) (fun _ => ?_)
          refine ite_tag (fun _ => ?_) (fun _ => ?_)
          · dsimp only [env]
            rcases stack with _ | ⟨v, st⟩
            · rfl
            · rcases T.case1[a.toNat]? with _ | _ | m <;> rfl
          refine ite_tag (fun _ => ?_) (fun _ => rfl)
          dsimp only [env]
          rcases stack with _ | ⟨v, st⟩
          · rfl
          · rcases T.case2[a.toNat]? with _ | _ | m
            · rfl
            · rfl
            · dsimp only
              rcases Codegen.lookup2 v m a2 with _ | d <;> rfl
        · rfl
      · rcases as with _ | ⟨a3, as⟩ <;> rfl
  · rcases as with _ | ⟨a2, as⟩
    · dsimp only
      exact ite_tag (fun _ => rfl) (fun _ => rfl)
    · rfl

def tagT (b : F) : Out (S W) (R W X) ⊕ (Bool × S W) → Out (S (W × F)) (R (W × F) X) ⊕ (Bool × S (W × F))
  | .inl o => .inl (tagO b o)
  | .inr (t, s) => .inr (t, tagS b s)

theorem testOp_tag (op : Byte) (imm : Option (BitVec 32)) (pc : Nat) (b : F) (s : S W) :
    testOp (env (via K send) T ex me) op imm pc (tagS b s) = tagT b (testOp (env K T ex me) op imm pc s) := by
  obtain ⟨stack, σ⟩ := s
  unfold testOp
  dsimp only [tagS]
  split
  · rcases stack with _ | ⟨v, st⟩ <;> rfl
  split
  · rcases stack with _ | ⟨v, st⟩ <;> rfl
  rcases imm with _ | i
  · dsimp only
    rcases Codegen.jfOf op with _ | o
    · rfl
    · rcases stack with _ | ⟨v, _ | ⟨v2, st⟩⟩
      · rfl
      · rfl
      · dsimp only
        rw [show (env (via K send) T ex me).world.cmp o v2 v (tag b σ) = tagE b (K.cmp o v2 v σ) from rfl,
          show (env K T ex me).world.cmp o v2 v σ = K.cmp o v2 v σ from rfl]
        rcases K.cmp o v2 v σ with ⟨_ | t, σ'⟩
        · exact congrArg Sum.inl (fail_tag _ _ _ _)
        · rfl
  · dsimp only
    rcases Codegen.jfIOf op with _ | o
    · rfl
    · rcases stack with _ | ⟨v, st⟩
      · rfl
      · dsimp only
        rw [show (env (via K send) T ex me).world.cmpI o v i (tag b σ) = tagE b (K.cmpI o v i σ) from rfl,
          show (env K T ex me).world.cmpI o v i σ = K.cmpI o v i σ from rfl]
        rcases K.cmpI o v i σ with ⟨_ | t, σ'⟩
        · exact congrArg Sum.inl (fail_tag _ _ _ _)
        · rfl

theorem conf_tag (b : F) (p : Nat) (o : Out (S W) (R W X)) : (tagO b o).conf p = tagC b (o.conf p) := by
  cases o <;> rfl

end Verif.Unwind
