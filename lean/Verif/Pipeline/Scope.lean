import Verif.Pipeline.Lower
import Verif.Codegen.TotalProps
/-!
# The trees of the grammar mention only the variables that the parser knows
-/
namespace Verif.Codegen

/-! ## Parentheses do not matter to the compiler's success -/

section
variable {K : Id → Prop} {B : Prop}

mutual
theorem legal_flat : ∀ (e : Node) (lp : Bool), Legal K B lp e.flat ↔ Legal K B lp e
  | .binop op l r, lp => by simp only [Node.flat, Legal, legal_flat l, legal_flat r]
  | .land l r, lp => by simp only [Node.flat, Legal, legal_flat l, legal_flat r]
  | .lor l r, lp => by simp only [Node.flat, Legal, legal_flat l, legal_flat r]
  | .unop op e, lp => by simp only [Node.flat, Legal, legal_flat e]
  | .array l, lp => by simp only [Node.flat, Legal, legalAll_flat l]
  | .range a b ex, lp => by simp only [Node.flat, Legal, legal_flat a, legal_flat b]
  | .index b i, lp => by simp only [Node.flat, Legal, legal_flat b, legal_flat i]
  | .seq .nil, lp => by rw [flat_empty]
  | .seq (.cons e .nil), lp => by
    rw [flat_one]
    simp only [Legal, LegalAll, legal_flat e, and_true]
  | .seq (.cons e (.cons f l)), lp => by
    rw [flat_two]
    simp only [Legal, LegalAll, legal_flat e, legal_flat f, legalAll_flat l]
  | .ite c t e, lp => by simp only [Node.flat, Legal, legal_flat c, legal_flat t, legal_flat e]
  | .while_ c b x, lp => by simp only [Node.flat, Legal, legal_flat c, legal_flat b]
  | .brk e, lp => by simp only [Node.flat, Legal, legal_flat e]
  | .nxt e, lp => by simp only [Node.flat, Legal, legal_flat e]
  | .ret e, lp => by simp only [Node.flat, Legal, legal_flat e]
  | .assign t e, lp => by simp only [Node.flat, Legal, legal_flat e]
  | .opassign op t e, lp => by simp only [Node.flat, Legal, legal_flat e]
  | .assignIdx b i e, lp => by simp only [Node.flat, Legal, legal_flat b, legal_flat i, legal_flat e]
  | .attrAssign r m e, lp => by simp only [Node.flat, Legal, legal_flat r, legal_flat e]
  | .massign ts l, lp => by simp only [Node.flat, Legal, legalAll_flat l]
  | .send r m l, lp => by simp only [Node.flat, Legal, legal_flat r, legalAll_flat l]
  | .sendB r m l b, lp => by simp only [Node.flat, Legal, legal_flat r, legalAll_flat l]
  | .yield_ l, lp => by simp only [Node.flat, Legal, legalAll_flat l]
  | .lit l, lp => by rw [Node.flat]
  | .self, lp => by rw [Node.flat]
  | .lvar id, lp => by rw [Node.flat]
  | .ivar id, lp => by rw [Node.flat]
  | .gvar id, lp => by rw [Node.flat]
  | .ident id, lp => by rw [Node.flat]
  | .carray l, lp => by rw [Node.flat]
  | .case_ c ws e, lp => by rw [Node.flat]
  | .caseN ws e, lp => by rw [Node.flat]
  | .begin_ b rs els ens, lp => by rw [Node.flat]

theorem legalAll_flat : ∀ (l : Nodes) (lp : Bool), LegalAll K B lp l.flat ↔ LegalAll K B lp l
  | .nil, lp => by rw [Nodes.flat]
  | .cons e l, lp => by simp only [Nodes.flat, LegalAll, legal_flat e, legalAll_flat l]
end
end

mutual
theorem weight_flat : ∀ e : Node, e.flat.weight = e.weight
  | .binop op l r => by simp only [Node.flat, Node.weight, weight_flat l, weight_flat r]
  | .land l r => by simp only [Node.flat, Node.weight, weight_flat l, weight_flat r]
  | .lor l r => by simp only [Node.flat, Node.weight, weight_flat l, weight_flat r]
  | .unop op e => by simp only [Node.flat, Node.weight, weight_flat e]
  | .array l => by simp only [Node.flat, Node.weight, weights_flat l]
  | .range a b ex => by simp only [Node.flat, Node.weight, weight_flat a, weight_flat b]
  | .index b i => by simp only [Node.flat, Node.weight, weight_flat b, weight_flat i]
  | .seq .nil => by rw [flat_empty]
  | .seq (.cons e .nil) => by
    rw [flat_one]
    simp only [Node.weight, Nodes.seqWeight, weight_flat e]
  | .seq (.cons e (.cons f l)) => by
    have := seqWeight_flat (.cons f l)
    rw [flat_two]
    rw [Nodes.flat] at this
    simp only [Node.weight, Nodes.seqWeight, weight_flat e, this]
  | .ite c t e => by simp only [Node.flat, Node.weight, weight_flat c, weight_flat t, weight_flat e]
  | .while_ c b x => by simp only [Node.flat, Node.weight, weight_flat c, weight_flat b]
  | .brk e => by simp only [Node.flat, Node.weight, weight_flat e]
  | .nxt e => by simp only [Node.flat, Node.weight, weight_flat e]
  | .ret e => by simp only [Node.flat, Node.weight, weight_flat e]
  | .assign t e => by simp only [Node.flat, Node.weight, weight_flat e]
  | .opassign op t e => by simp only [Node.flat, Node.weight, weight_flat e]
  | .assignIdx b i e => by simp only [Node.flat, Node.weight, weight_flat b, weight_flat i, weight_flat e]
  | .attrAssign r m e => by simp only [Node.flat, Node.weight, weight_flat r, weight_flat e]
  | .massign ts l => by simp only [Node.flat, Node.weight, weights_flat l, flat_length]
  | .send r m l => by simp only [Node.flat, Node.weight, weight_flat r, weights_flat l]
  | .sendB r m l b => by simp only [Node.flat, Node.weight, weight_flat r, weights_flat l]
  | .yield_ l => by simp only [Node.flat, Node.weight, weights_flat l]
  | .lit l => by rw [Node.flat]
  | .self => by rw [Node.flat]
  | .lvar id => by rw [Node.flat]
  | .ivar id => by rw [Node.flat]
  | .gvar id => by rw [Node.flat]
  | .ident id => by rw [Node.flat]
  | .carray l => by rw [Node.flat]
  | .case_ c ws e => by rw [Node.flat]
  | .caseN ws e => by rw [Node.flat]
  | .begin_ b rs els ens => by rw [Node.flat]

theorem weights_flat : ∀ l : Nodes, l.flat.weight = l.weight
  | .nil => by rw [Nodes.flat]
  | .cons e l => by simp only [Nodes.flat, Nodes.weight, weight_flat e, weights_flat l]

theorem seqWeight_flat : ∀ l : Nodes, l.flat.seqWeight = l.seqWeight
  | .nil => by rw [Nodes.flat]
  | .cons e .nil => by simp only [Nodes.flat, Nodes.seqWeight, weight_flat e]
  | .cons e (.cons f l) => by
    have := seqWeight_flat (.cons f l)
    rw [Nodes.flat] at this
    simp only [Nodes.flat, Nodes.seqWeight, weight_flat e, this]
end

/-! ## The two parts of being legal -/

section
variable {K : Id → Prop} {B : Prop}

mutual
theorem legal_parts : ∀ (e : Node) {lp : Bool}, Legal K True true e → Legal (fun _ => True) B lp e → Legal K B lp e
  | .lit _, _, _, _ => by rw [Legal]; trivial
  | .self, _, _, _ => by rw [Legal]; trivial
  | .lvar id, _, h, _ => by rw [Legal] at h ⊢; exact h
  | .ivar _, _, _, _ => by rw [Legal]; trivial
  | .gvar _, _, _, _ => by rw [Legal]; trivial
  | .ident _, _, _, _ => by rw [Legal]; trivial
  | .binop _ l r, _, h, h' => by
    rw [Legal] at h h' ⊢
    exact ⟨legal_parts l h.1 h'.1, legal_parts r h.2 h'.2⟩
  | .land l r, _, h, h' => by
    rw [Legal] at h h' ⊢
    exact ⟨legal_parts l h.1 h'.1, legal_parts r h.2 h'.2⟩
  | .lor l r, _, h, h' => by
    rw [Legal] at h h' ⊢
    exact ⟨legal_parts l h.1 h'.1, legal_parts r h.2 h'.2⟩
  | .unop _ a, _, h, h' => by
    rw [Legal] at h h' ⊢
    exact legal_parts a h h'
  | .array ns, _, h, h' => by
    rw [Legal] at h h' ⊢
    exact legalAll_parts ns h h'
  | .carray _, _, _, _ => by rw [Legal]; trivial
  | .range l r _, _, h, h' => by
    rw [Legal] at h h' ⊢
    exact ⟨legal_parts l h.1 h'.1, legal_parts r h.2 h'.2⟩
  | .index l r, _, h, h' => by
    rw [Legal] at h h' ⊢
    exact ⟨legal_parts l h.1 h'.1, legal_parts r h.2 h'.2⟩
  | .seq ns, _, h, h' => by
    rw [Legal] at h h' ⊢
    exact legalAll_parts ns h h'
  | .ite c a b, _, h, h' => by
    rw [Legal] at h h' ⊢
    exact ⟨legal_parts c h.1 h'.1, legal_parts a h.2.1 h'.2.1, legal_parts b h.2.2 h'.2.2⟩
  | .while_ c b _, _, h, h' => by
    rw [Legal] at h h' ⊢
    exact ⟨legal_parts c h.1 h'.1, legal_parts b h.2 h'.2⟩
  | .brk a, _, h, h' => by
    rw [Legal] at h h' ⊢
    exact ⟨h'.1, legal_parts a h.2 h'.2⟩
  | .nxt a, _, h, h' => by
    rw [Legal] at h h' ⊢
    exact ⟨h'.1, legal_parts a h.2 h'.2⟩
  | .ret a, _, h, h' => by
    rw [Legal] at h h' ⊢
    exact legal_parts a h h'
  | .assign _ a, _, h, h' => by
    rw [Legal] at h h' ⊢
    exact ⟨h.1, legal_parts a h.2 h'.2⟩
  | .opassign _ _ a, _, h, h' => by
    rw [Legal] at h h' ⊢
    exact ⟨h.1, legal_parts a h.2 h'.2⟩
  | .assignIdx c a b, _, h, h' => by
    rw [Legal] at h h' ⊢
    exact ⟨legal_parts c h.1 h'.1, legal_parts a h.2.1 h'.2.1, legal_parts b h.2.2 h'.2.2⟩
  | .attrAssign l _ r, _, h, h' => by
    rw [Legal] at h h' ⊢
    exact ⟨legal_parts l h.1 h'.1, legal_parts r h.2 h'.2⟩
  | .massign _ ns, _, h, h' => by
    rw [Legal] at h h' ⊢
    exact ⟨h.1, legalAll_parts ns h.2 h'.2⟩
  | .send a _ ns, _, h, h' => by
    rw [Legal] at h h' ⊢
    exact ⟨legal_parts a h.1 h'.1, legalAll_parts ns h.2 h'.2⟩
  | .sendB a _ ns _, _, h, h' => by
    rw [Legal] at h h' ⊢
    exact ⟨legal_parts a h.1 h'.1, legalAll_parts ns h.2 h'.2⟩
  | .yield_ ns, _, h, h' => by
    rw [Legal] at h h' ⊢
    exact legalAll_parts ns h h'
  | .case_ c ws b, _, h, h' => by
    rw [Legal] at h h' ⊢
    exact ⟨legal_parts c h.1 h'.1, legalWhens_parts ws h.2.1 h'.2.1, legal_parts b h.2.2 h'.2.2⟩
  | .caseN ws b, _, h, h' => by
    rw [Legal] at h h' ⊢
    exact ⟨legalWhens_parts ws h.1 h'.1, legal_parts b h.2 h'.2⟩
  | .begin_ b rs els ens, _, h, h' => by
    rw [Legal] at h h' ⊢
    exact ⟨legal_parts b h.1 h'.1, legalRescues_parts rs h.2.1 h'.2.1, legalOpt_parts els h.2.2.1 h'.2.2.1,
      legalOpt_parts ens h.2.2.2 h'.2.2.2⟩

theorem legalAll_parts : ∀ (l : Nodes) {lp : Bool}, LegalAll K True true l → LegalAll (fun _ => True) B lp l → LegalAll K B lp l
  | .nil, _, _, _ => by rw [LegalAll]; trivial
  | .cons n ns, _, h, h' => by
    rw [LegalAll] at h h' ⊢
    exact ⟨legal_parts n h.1 h'.1, legalAll_parts ns h.2 h'.2⟩

theorem legalWhens_parts : ∀ (l : Whens) {lp : Bool}, LegalWhens K True true l → LegalWhens (fun _ => True) B lp l →
    LegalWhens K B lp l
  | .nil, _, _, _ => by rw [LegalWhens]; trivial
  | .cons ls b rest, _, h, h' => by
    rw [LegalWhens] at h h' ⊢
    exact ⟨legalAll_parts ls h.1 h'.1, legal_parts b h.2.1 h'.2.1, legalWhens_parts rest h.2.2 h'.2.2⟩

theorem legalRescues_parts : ∀ (l : Rescues) {lp : Bool}, LegalRescues K True true l →
    LegalRescues (fun _ => True) B lp l → LegalRescues K B lp l
  | .nil, _, _, _ => by rw [LegalRescues]; trivial
  | .cons excs t b rest, _, h, h' => by
    rw [LegalRescues] at h h' ⊢
    exact ⟨legalAll_parts excs h.1 h'.1, h.2.1, legal_parts b h.2.2.1 h'.2.2.1, legalRescues_parts rest h.2.2.2 h'.2.2.2⟩

theorem legalOpt_parts : ∀ (l : OptNode) {lp : Bool}, LegalOpt K True true l → LegalOpt (fun _ => True) B lp l →
    LegalOpt K B lp l
  | .none, _, _, _ => by rw [LegalOpt]; trivial
  | .some n, _, h, h' => by
    rw [LegalOpt] at h h' ⊢
    exact legal_parts n h h'
end
end

end Verif.Codegen
