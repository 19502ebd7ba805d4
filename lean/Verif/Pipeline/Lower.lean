import Verif.Pipeline.Model
import Verif.Pipeline.Flat
/-!
# Parentheses in the parser's trees are lists of one statement in the compiler's
-/
namespace Verif.Pipeline
open Verif.Lexer (Chars)
open Verif.Parser (strip stripAll stripTargets isList)
open Verif.Codegen (Id Var Nodes Lit Ctx)

theorem bin_flat (id : Names) (op : Lexer.BinOp) (a b : Codegen.Node) :
    (bin id op a b).flat = bin id op a.flat b.flat := by
  cases op <;> rfl

theorem both_flat {f g : Codegen.Node → Codegen.Node → Codegen.Node} (h : ∀ a b, (f a b).flat = g a.flat b.flat)
    (a b : Option Codegen.Node) :
    both g (a.map Codegen.Node.flat) (b.map Codegen.Node.flat) = (both f a b).map Codegen.Node.flat := by
  cases a <;> cases b <;> simp [both, h]

theorem three_flat {f g : Codegen.Node → Codegen.Node → Codegen.Node → Codegen.Node}
    (h : ∀ a b c, (f a b c).flat = g a.flat b.flat c.flat) (a b c : Option Codegen.Node) :
    three g (a.map Codegen.Node.flat) (b.map Codegen.Node.flat) (c.map Codegen.Node.flat) =
      (three f a b c).map Codegen.Node.flat := by
  cases a <;> cases b <;> cases c <;> simp [three, h]

theorem map_flat {f g : Codegen.Node → Codegen.Node} (h : ∀ a, (f a).flat = g a.flat) (a : Option Codegen.Node) :
    (a.map Codegen.Node.flat).map g = (a.map f).map Codegen.Node.flat := by
  cases a <;> simp [h]

theorem maps_flat {f g : Nodes → Codegen.Node} (h : ∀ a, (f a).flat = g a.flat) (a : Option Nodes) :
    (a.map Nodes.flat).map g = (a.map f).map Codegen.Node.flat := by
  cases a <;> simp [h]

theorem seq_flat {l : List Parser.Node} {id : Names} (hl : ∀ e, l ≠ [e]) :
    ((lowerAll id l).map Nodes.flat).map Codegen.Node.seq = ((lowerAll id l).map .seq).map Codegen.Node.flat := by
  match l with
  | [] => rfl
  | [e] => exact absurd rfl (hl e)
  | a :: b :: l =>
    rw [lowerAll, lowerAll]
    rcases lower id a with _ | a <;> rcases lower id b with _ | b <;> rcases lowerAll id l with _ | l <;> try rfl

theorem lowerLit_strip : ∀ e : Parser.Node, lowerLit (strip e) = lowerLit e := by
  intro e
  fun_induction lowerLit e with
  | case5 e ih => rw [strip]; exact ih
  | case6 e h1 h2 h3 h4 h5 =>
    cases e with
    | Nil => exact absurd rfl h1
    | Bool b => exact absurd rfl (h2 b)
    | Integer i => exact absurd rfl (h3 i)
    | Bignum i => exact absurd rfl (h4 i)
    | CompStmt l =>
      match l with
      | [] => rfl
      | [e] => exact absurd rfl (h5 e)
      | a :: b :: l => simp [strip, stripAll, lowerLit]
    | Def n ps b vs => cases b <;> rfl
    | _ => rw [strip] <;> simp [lowerLit]
  | _ => rfl

theorem lowerLits_strip : ∀ l : List Parser.Node, lowerLits (stripAll l) = lowerLits l
  | [] => rfl
  | e :: l => by rw [stripAll, lowerLits, lowerLits, lowerLit_strip, lowerLits_strip l]

theorem lowerVar_strip (id : Names) (e : Parser.Node) : lowerVar id (if isList e then e else strip e) = lowerVar id e := by
  cases e with
  | CompStmt l => rfl
  | Def n ps b vs => cases b <;> rfl
  | _ => rfl

theorem lowerVars_strip (id : Names) : ∀ l : List Parser.Node, lowerVars id (stripTargets l) = lowerVars id l
  | [] => rfl
  | e :: l => by rw [stripTargets, lowerVars, lowerVars, lowerVar_strip, lowerVars_strip id l]

theorem lower_mul (id : Names) (ls rs : List Parser.Node) (h : ∀ l r, ls = [l] → rs = [r] → False) :
    lower id (.MulAssign ls rs) = massign (lowerVars id ls) (lowerAll id rs) := by
  rw [lower]
  exact h

theorem mul_flat (id : Names) (ls rs : List Parser.Node) (h : ∀ l r, ls = [l] → rs = [r] → False)
    (h' : lowerAll id (stripAll rs) = (lowerAll id rs).map Nodes.flat) :
    lower id (strip (.MulAssign ls rs)) = (lower id (.MulAssign ls rs)).map Codegen.Node.flat := by
  rw [strip, lower_mul id ls rs h, lower_mul id _ _ ?_, lowerVars_strip, h']
  · rcases lowerVars id ls with _ | ts <;> rcases lowerAll id rs with _ | es <;> rfl
  · intro l r h1 h2
    match ls, rs with
    | [a], [b] => exact h a b rfl rfl
    | [], _ => cases h1
    | _ :: _ :: _, _ => cases h1
    | _, [] => cases h2
    | _, _ :: _ :: _ => cases h2

section
variable (id : Names)

mutual
theorem lower_strip : ∀ e : Parser.Node, lower id (strip e) = (lower id e).map Codegen.Node.flat
  | .SelfValue | .Nil | .Bool _ | .Integer _ | .Bignum _ | .String _ | .LocalVar _ | .Ident _ | .InstanceVar _
  | .GlobalVar _ | .Float .. | .Imaginary _ | .SpecialVar _ | .ClassVar _ | .Const .. => by rfl
  | .Range a b ex false => by
    rw [strip, lower, lower, lower_strip a, lower_strip b]; exact both_flat (fun _ _ => rfl) _ _
  | .Range a b ex true => by rw [strip, lower, lower] <;> simp
  | .Array l true => by
    rw [strip, lower, lower, lowerLits_strip]
    cases lowerLits l <;> rfl
  | .Array l false => by
    rw [strip, lower, lower, lowerAll_strip l]; exact maps_flat (fun _ => rfl) _
  | .Scope e x => by rw [strip, lower, lower] <;> simp
  | .BinOp op l r => by
    rw [strip, lower, lower, lower_strip l, lower_strip r]; exact both_flat (bin_flat id op) _ _
  | .UnOp op e => by
    rw [strip, lower, lower, lower_strip e]; cases lower id e <;> rfl
  | .Index b [] => by rw [strip, stripAll, lower, lower] <;> simp
  | .Index b [i] => by
    rw [strip, stripAll, stripAll, lower, lower, lower_strip b, lower_strip i]; exact both_flat (fun _ _ => rfl) _ _
  | .Index b (i :: j :: l) => by rw [strip, stripAll, stripAll, lower, lower] <;> simp
  | .Splat e => by rw [strip, lower, lower] <;> simp
  | .AssignOp op l r => by
    rw [strip, lower, lower, lower_strip r, ← assign_strip l]
    by_cases hl : isList l = true
    · rw [if_pos hl]
      cases l with
      | CompStmt l => simp [assign]
      | _ => simp [isList] at hl
    · rw [if_neg hl, lower_strip l, both_flat (bin_flat id op)]
  | .MulAssign [l] [r] => by
    rw [strip, stripTargets, stripTargets, stripAll, stripAll, lower, lower, lower_strip r, assign_strip l]
  | .MulAssign [] rs => mul_flat id [] rs (by simp) (lowerAll_strip rs)
  | .MulAssign [l] [] => mul_flat id [l] [] (by simp) (lowerAll_strip [])
  | .MulAssign [l] (a :: b :: rs) => mul_flat id [l] (a :: b :: rs) (by simp) (lowerAll_strip (a :: b :: rs))
  | .MulAssign (l :: m :: ls) rs => mul_flat id (l :: m :: ls) rs (by simp) (lowerAll_strip rs)
  | .CompStmt [] => by rfl
  | .CompStmt [e] => by
    rw [strip, lower_strip e, lower, lowerAll, lowerAll]
    rcases lower id e with _ | e
    · rfl
    · dsimp only [Option.map_some]; rw [Codegen.flat_one]
  | .CompStmt (a :: b :: l) => by
    rw [show strip (.CompStmt (a :: b :: l)) = .CompStmt (stripAll (a :: b :: l)) from by rw [strip]; simp, lower, lower,
      lowerAll_strip (a :: b :: l)]
    exact seq_flat (by simp)
  | .If c t e => by
    rw [strip, lower, lower, lower_strip c, lower_strip t, lower_strip e]; exact three_flat (fun _ _ _ => rfl) _ _ _
  | .While c b x => by
    rw [strip, lower, lower, lower_strip c, lower_strip b]; exact both_flat (fun _ _ => rfl) _ _
  | .Rescue e r => by rw [strip, lower, lower] <;> simp
  | .Break e => by rw [strip, lower, lower, lower_strip e]; cases lower id e <;> rfl
  | .Next e => by rw [strip, lower, lower, lower_strip e]; cases lower id e <;> rfl
  | .Return e => by rw [strip, lower, lower, lower_strip e]; cases lower id e <;> rfl
  | .Send r m args false => by
    rw [strip, lower, lower, lower_strip r, lowerAll_strip args]
    rcases lower id r with _ | r <;> rcases lowerAll id args with _ | as <;> rfl
  | .Send r m args true => by rw [strip, lower, lower] <;> simp
  | .Defined e => by rw [strip, lower, lower] <;> simp
  | .Def n ps b vs => by
    obtain ⟨b', h⟩ : ∃ b', strip (.Def n ps b vs) = .Def n ps b' vs := by cases b <;> exact ⟨_, rfl⟩
    rw [h, lower, lower] <;> simp

theorem lowerAll_strip : ∀ l : List Parser.Node, lowerAll id (stripAll l) = (lowerAll id l).map Nodes.flat
  | [] => rfl
  | e :: l => by
    rw [stripAll, lowerAll, lowerAll, lower_strip e, lowerAll_strip l]
    rcases lower id e with _ | e <;> rcases lowerAll id l with _ | l <;> rfl

theorem assign_strip : ∀ (l : Parser.Node) (r : Option Codegen.Node),
    assign id (if isList l then l else strip l) (r.map Codegen.Node.flat) = (assign id l r).map Codegen.Node.flat
  | .Ident _, r | .LocalVar _, r | .InstanceVar _, r | .GlobalVar _, r => by cases r <;> rfl
  | .Index b [i], r => by
    rw [if_neg (by simp [isList]), strip, stripAll, stripAll, assign, assign, lower_strip b, lower_strip i]
    exact three_flat (fun _ _ _ => rfl) _ _ _
  | .Send q m args safe, r => by
    rw [if_neg (by simp [isList]), strip, assign, assign, lower_strip q]
    exact both_flat (fun _ _ => rfl) _ _
  | .Index b [], r => by rw [if_neg (by simp [isList]), strip, stripAll, assign, assign] <;> simp
  | .Index b (i :: j :: l), r => by rw [if_neg (by simp [isList]), strip, stripAll, stripAll, assign, assign] <;> simp
  | .SelfValue, r | .Nil, r | .Bool _, r | .Integer _, r | .Bignum _, r | .String _, r
  | .Float .., r | .Imaginary _, r | .SpecialVar _, r | .ClassVar _, r | .Const .., r | .Range .., r | .Array .., r | .Scope .., r
  | .BinOp .., r | .UnOp .., r | .Splat _, r | .AssignOp .., r | .MulAssign .., r | .If .., r | .While .., r | .Rescue .., r
  | .Break _, r | .Next _, r | .Return _, r | .Defined _, r => by
    rw [if_neg (by simp [isList]), strip] <;> simp [assign]
  | .CompStmt _, r => by simp [isList, assign]
  | .Def n ps b vs, r => by
    obtain ⟨b', h⟩ : ∃ b', strip (.Def n ps b vs) = .Def n ps b' vs := by cases b <;> exact ⟨_, rfl⟩
    rw [if_neg (by simp [isList]), h, assign, assign] <;> simp
end
end

end Verif.Pipeline
