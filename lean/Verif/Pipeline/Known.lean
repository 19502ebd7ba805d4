import Verif.Pipeline.Scope
/-!
# The trees of the grammar mention only the variables that the parser knows (continued)
-/
namespace Verif.Pipeline
open Verif.Lexer (Chars)
open Verif.Parser hiding Node
open Verif.Codegen (Id Var Nodes Lit Legal LegalAll knownVar)

/-- The variables that a compiled tree may mention. -/
abbrev Has (Δ : List Chars) (id : Names) : Id → Prop := fun i => i ∈ Δ.map id

/-- What the tree is compiled from mentions only `Δ`. -/
def Scoped (Δ : List Chars) (e : Parser.Node) : Prop :=
  ∀ (id : Names) (c : Codegen.Node), lower id e = some c → Legal (Has Δ id) True true c

def ScopedAll (Δ : List Chars) (l : List Parser.Node) : Prop :=
  ∀ (id : Names) (c : Nodes), lowerAll id l = some c → LegalAll (Has Δ id) True true c

/-- … and so does an assignment to it. -/
def ScopedTo (Δ : List Chars) (e : Parser.Node) : Prop :=
  ∀ (id : Names) (r : Option Codegen.Node) (c : Codegen.Node), (∀ r', r = some r' → Legal (Has Δ id) True true r') →
    assign id e r = some c → Legal (Has Δ id) True true c

variable {Δ : List Chars} {id : Names}

theorem both_some {f : Codegen.Node → Codegen.Node → Codegen.Node} {a b : Option Codegen.Node} {c : Codegen.Node}
    (h : both f a b = some c) : ∃ a' b', a = some a' ∧ b = some b' ∧ c = f a' b' := by
  cases a <;> cases b <;> cases h
  exact ⟨_, _, rfl, rfl, rfl⟩

theorem three_some {f : Codegen.Node → Codegen.Node → Codegen.Node → Codegen.Node} {a b d : Option Codegen.Node}
    {c : Codegen.Node} (h : three f a b d = some c) :
    ∃ a' b' d', a = some a' ∧ b = some b' ∧ d = some d' ∧ c = f a' b' d' := by
  cases a <;> cases b <;> cases d <;> cases h
  exact ⟨_, _, _, rfl, rfl, rfl, rfl⟩

theorem map_some {α β : Type} {f : α → β} {a : Option α} {c : β} (h : a.map f = some c) :
    ∃ a', a = some a' ∧ c = f a' := by
  cases a <;> cases h
  exact ⟨_, rfl, rfl⟩

theorem legal_bin {K : Id → Prop} {B : Prop} {lp : Bool} {op : Lexer.BinOp} {a b : Codegen.Node} (ha : Legal K B lp a)
    (hb : Legal K B lp b) : Legal K B lp (bin id op a b) := by
  cases op <;> (unfold bin; simp only [Legal, LegalAll]; exact ⟨ha, by first | exact hb | exact ⟨hb, trivial⟩⟩)

theorem Scoped.two {f : Codegen.Node → Codegen.Node → Codegen.Node} {a b : Parser.Node} {c : Codegen.Node}
    (h : both f (lower id a) (lower id b) = some c)
    (hf : ∀ a b, Legal (Has Δ id) True true a → Legal (Has Δ id) True true b → Legal (Has Δ id) True true (f a b))
    (ha : Scoped Δ a) (hb : Scoped Δ b) : Legal (Has Δ id) True true c := by
  obtain ⟨a', b', h1, h2, rfl⟩ := both_some h
  exact hf _ _ (ha id _ h1) (hb id _ h2)

theorem Scoped.bin {op : Lexer.BinOp} {a b : Parser.Node} (ha : Scoped Δ a) (hb : Scoped Δ b) :
    Scoped Δ (.BinOp op a b) := by
  intro id c h
  rw [lower] at h
  exact Scoped.two h (fun _ _ => legal_bin) ha hb

theorem Scoped.un {op : Parser.UnOp} {a : Parser.Node} (ha : Scoped Δ a) : Scoped Δ (.UnOp op a) := by
  intro id c h
  rw [lower] at h
  obtain ⟨a', h1, rfl⟩ := map_some h
  rw [Legal]
  exact ha id _ h1

theorem Scoped.if_ {a b d : Parser.Node} (ha : Scoped Δ a) (hb : Scoped Δ b) (hd : Scoped Δ d) : Scoped Δ (.If a b d) := by
  intro id c h
  rw [lower] at h
  obtain ⟨a', b', d', h1, h2, h3, rfl⟩ := three_some h
  rw [Legal]
  exact ⟨ha id _ h1, hb id _ h2, hd id _ h3⟩

theorem Scoped.while_ {a b : Parser.Node} {x : Bool} (ha : Scoped Δ a) (hb : Scoped Δ b) : Scoped Δ (.While a b x) := by
  intro id c h
  rw [lower] at h
  obtain ⟨a', b', h1, h2, rfl⟩ := both_some h
  rw [Legal]
  exact ⟨ha id _ h1, hb id _ h2⟩

theorem Scoped.seq {l : List Parser.Node} (h : ScopedAll Δ l) : Scoped Δ (.CompStmt l) := by
  intro id c hc
  rw [lower] at hc
  obtain ⟨l', h1, rfl⟩ := map_some hc
  rw [Legal]
  exact h id _ h1

theorem Scoped.seq_nil : Scoped Δ (.CompStmt []) := Scoped.seq (by
  intro id c h
  cases h
  rw [LegalAll]; trivial)

theorem Scoped.nil : Scoped Δ .Nil := by
  intro id c h
  cases h
  rw [Legal]; trivial

theorem Scoped.jump {e : Parser.Node} (h : Scoped Δ e) (j : Jump) : Scoped Δ (j.node e) := by
  intro id c hc
  cases j <;> (simp only [Jump.node, lower] at hc; obtain ⟨a', h1, rfl⟩ := map_some hc; rw [Legal])
  · exact h id _ h1
  · exact ⟨.inl rfl, h id _ h1⟩
  · exact ⟨.inl rfl, h id _ h1⟩

theorem ScopedAll.nil : ScopedAll Δ [] := by
  intro id c h
  cases h
  rw [LegalAll]; trivial

theorem ScopedAll.cons {e : Parser.Node} {l : List Parser.Node} (h : Scoped Δ e) (hl : ScopedAll Δ l) :
    ScopedAll Δ (e :: l) := by
  intro id c hc
  rw [lowerAll] at hc
  split at hc
  · rename_i h1 h2
    cases hc
    rw [LegalAll]
    exact ⟨h id _ h1, hl id _ h2⟩
  · cases hc

theorem Scoped.array {l : List Parser.Node} {b : Bool} (h : ScopedAll Δ l) : Scoped Δ (.Array l b) := by
  intro id c hc
  cases b <;> (rw [lower] at hc; obtain ⟨a', h1, rfl⟩ := map_some hc; rw [Legal])
  · exact h id _ h1
  · trivial

theorem Scoped.assign1 {l r : Parser.Node} (hl : ScopedTo Δ l) (hr : Scoped Δ r) : Scoped Δ (.MulAssign [l] [r]) := by
  intro id c hc
  rw [lower] at hc
  exact hl id _ c (fun r' h => hr id _ h) hc

theorem Scoped.assignOp {op : Lexer.BinOp} {l r : Parser.Node} (hl : Scoped Δ l) (hl' : ScopedTo Δ l) (hr : Scoped Δ r) :
    Scoped Δ (.AssignOp op l r) := by
  intro id c hc
  rw [lower] at hc
  exact hl' id _ c (fun r' h => Scoped.two h (fun _ _ => legal_bin) hl hr) hc

/-- The target's own variable is known. -/
def VarIn (Δ : List Chars) : Parser.Node → Prop
  | .Ident x => x ∈ Δ
  | .LocalVar x => x ∈ Δ
  | _ => True

theorem lowerVars_known : ∀ {ls : List Parser.Node} {ts : List Var}, (∀ l ∈ ls, VarIn Δ l) →
    lowerVars id ls = some ts → ∀ t ∈ ts, knownVar (Has Δ id) t
  | [], ts, _, h => by cases h; simp
  | l :: ls, ts, hv, h => by
    rw [lowerVars] at h
    split at h
    · rename_i a s h1 h2
      cases h
      intro t ht
      rcases List.mem_cons.1 ht with rfl | ht
      · have := hv l (by simp)
        cases l <;> cases h1 <;> first | trivial | exact List.mem_map_of_mem this
      · exact lowerVars_known (fun l' hl => hv l' (by simp [hl])) h2 t ht
    · cases h

theorem Scoped.massign {ls rs : List Parser.Node} (hl : ∀ l ∈ ls, VarIn Δ l) (hr : ScopedAll Δ rs)
    (h : ∀ l r, ls = [l] → rs = [r] → False) : Scoped Δ (.MulAssign ls rs) := by
  intro id c hc
  rw [lower_mul id ls rs h] at hc
  unfold Pipeline.massign at hc
  split at hc
  · rename_i h1 h2
    cases hc
    rw [Legal]
    exact ⟨lowerVars_known hl h1, hr id _ h2⟩
  · cases hc

/-- A tree that stands between `Γ` and `Γ'`. -/
structure Fits (Γ : List Chars) (e : Parser.Node) (Γ' : List Chars) : Prop where
  grows : Γ ⊆ Γ'
  legal : ∀ Δ, Γ' ⊆ Δ → Scoped Δ e
  into : ∀ Δ, Γ' ⊆ Δ → (∀ x, e = .Ident x → x ∈ Δ) → ScopedTo Δ e
  var : ∀ Δ, Γ' ⊆ Δ → (∀ x, e = .Ident x → x ∈ Δ) → VarIn Δ e

structure FitsAll (Γ : List Chars) (l : List Parser.Node) (Γ' : List Chars) : Prop where
  grows : Γ ⊆ Γ'
  legal : ∀ Δ, Γ' ⊆ Δ → ScopedAll Δ l

/-- Not a target that `lower` knows. -/
def noTarget : Parser.Node → Bool
  | .Ident _ => false
  | .LocalVar _ => false
  | .InstanceVar _ => false
  | .GlobalVar _ => false
  | .Index .. => false
  | .Send .. => false
  | _ => true

theorem Fits.plain {Γ Γ' : List Chars} {e : Parser.Node} (hg : Γ ⊆ Γ') (hl : ∀ Δ, Γ' ⊆ Δ → Scoped Δ e)
    (hn : noTarget e = true) : Fits Γ e Γ' where
  grows := hg
  legal := hl
  into := by
    intro Δ _ _ id r c _ h
    cases e <;> first | (cases hn; done) | (rw [assign] at h <;> cases h)
  var := by
    intro Δ _ _
    cases e <;> first | (cases hn; done) | trivial

theorem subset_varsAfter (l : Parser.Node) (Γ : List Chars) : Γ ⊆ varsAfter l Γ := by
  cases l <;> try exact fun _ h => h
  rename_i x
  simp only [varsAfter, withVar]
  split
  · exact fun _ h => h
  · exact fun _ h => List.mem_cons_of_mem _ h

theorem mem_varsAfter (x : Chars) (Γ : List Chars) : x ∈ varsAfter (.Ident x) Γ := by
  simp only [varsAfter, withVar]
  split
  · rename_i h
    exact List.contains_iff_mem.1 h
  · exact List.mem_cons_self ..

theorem subset_varsAfterAll : ∀ (ls : List Parser.Node) (Γ : List Chars), Γ ⊆ varsAfterAll ls Γ
  | [], _ => fun _ h => h
  | l :: ls, Γ => fun _ h => subset_varsAfterAll ls _ (subset_varsAfter l Γ h)

theorem mem_varsAfterAll {x : Chars} : ∀ {ls : List Parser.Node} (Γ : List Chars), .Ident x ∈ ls → x ∈ varsAfterAll ls Γ
  | l :: ls, Γ, h => by
    rcases List.mem_cons.1 h with h | h
    · cases h
      exact subset_varsAfterAll ls _ (mem_varsAfter x Γ)
    · exact mem_varsAfterAll (ls := ls) _ h

theorem nosplat (e : Parser.Node) : Scoped Δ (.Splat e) := by
  intro id c h
  rw [lower] at h <;> cases h

theorem lower_index_many {id : Names} {b : Parser.Node} {l : List Parser.Node} (h : ∀ i, l ≠ [i]) :
    lower id (.Index b l) = none := by
  rw [lower] <;> simp_all

theorem assign_index_many {id : Names} {b : Parser.Node} {l : List Parser.Node} {r : Option Codegen.Node}
    (h : ∀ i, l ≠ [i]) : assign id (.Index b l) r = none := by
  rw [assign] <;> simp_all

theorem send_fits {Γ Γ₁ Γ₂ : List Chars} {r : Parser.Node} {m : Chars} {l : List Parser.Node} {safe : Bool}
    (h1 : Fits Γ r Γ₁) (h2 : FitsAll Γ₁ l Γ₂) : Fits Γ (.Send r m l safe) Γ₂ where
  grows := fun _ h => h2.grows (h1.grows h)
  legal := by
    intro Δ hΔ id c h
    cases safe with
    | true => rw [lower] at h <;> cases h
    | false =>
      rw [lower] at h
      split at h
      · rename_i e1 e2
        cases h
        rw [Legal]
        exact ⟨h1.legal Δ (fun _ h => hΔ (h2.grows h)) id _ e1, h2.legal Δ hΔ id _ e2⟩
      · cases h
  into := by
    intro Δ hΔ _ id r c hr h
    rw [assign] at h
    obtain ⟨b', r', e1, e2, rfl⟩ := both_some h
    rw [Legal]
    exact ⟨h1.legal Δ (fun _ h => hΔ (h2.grows h)) id _ e1, hr _ e2⟩
  var := fun _ _ _ => trivial

mutual
theorem tree_fits : ∀ {Γ e Γ'}, Tree Γ e Γ' → Fits Γ e Γ'
  | _, _, _, .self => .plain (fun _ h => h) (by intro Δ _ id c h; cases h; rw [Legal]; trivial) rfl
  | _, _, _, .nil => .plain (fun _ h => h) (fun _ _ => .nil) rfl
  | _, _, _, .bool => .plain (fun _ h => h) (by intro Δ _ id c h; cases h; rw [Legal]; trivial) rfl
  | _, _, _, .int _ _ => .plain (fun _ h => h) (by intro Δ _ id c h; cases h; rw [Legal]; trivial) rfl
  | _, _, _, .big _ => .plain (fun _ h => h) (by intro Δ _ id c h; cases h; rw [Legal]; trivial) rfl
  | _, _, _, .string => .plain (fun _ h => h) (by intro Δ _ id c h; cases h; rw [Legal]; trivial) rfl
  | _, _, _, .lvar _ hx =>
    { grows := fun _ h => h
      legal := by
        intro Δ hΔ id c h
        cases h
        rw [Legal]
        exact List.mem_map_of_mem (hΔ hx)
      into := by
        intro Δ hΔ _ id r c hr h
        rw [assign] at h
        obtain ⟨r', rfl, rfl⟩ := map_some h
        rw [Legal]
        exact ⟨List.mem_map_of_mem (hΔ hx), hr _ rfl⟩
      var := fun Δ hΔ _ => hΔ hx }
  | _, _, _, .ident _ _ =>
    { grows := fun _ h => h
      legal := by intro Δ hΔ id c h; cases h; rw [Legal]; trivial
      into := by
        intro Δ hΔ hx id r c hr h
        rw [assign] at h
        obtain ⟨r', rfl, rfl⟩ := map_some h
        rw [Legal]
        exact ⟨List.mem_map_of_mem (hx _ rfl), hr _ rfl⟩
      var := fun Δ hΔ hx => hx _ rfl }
  | _, _, _, .ivar _ =>
    { grows := fun _ h => h
      legal := by intro Δ hΔ id c h; cases h; rw [Legal]; trivial
      into := by
        intro Δ hΔ hx id r c hr h
        rw [assign] at h
        obtain ⟨r', rfl, rfl⟩ := map_some h
        rw [Legal]
        exact ⟨trivial, hr _ rfl⟩
      var := fun Δ hΔ hx => trivial }
  | _, _, _, .gvar _ =>
    { grows := fun _ h => h
      legal := by intro Δ hΔ id c h; cases h; rw [Legal]; trivial
      into := by
        intro Δ hΔ hx id r c hr h
        rw [assign] at h
        obtain ⟨r', rfl, rfl⟩ := map_some h
        rw [Legal]
        exact ⟨trivial, hr _ rfl⟩
      var := fun Δ hΔ hx => trivial }
  | _, _, _, .cvar _ => .plain (fun _ h => h) (by intro Δ _ id c h; rw [lower] at h <;> cases h) rfl
  | _, _, _, .const _ => .plain (fun _ h => h) (by intro Δ _ id c h; rw [lower] at h <;> cases h) rfl
  | _, _, _, .range (c := c) ha hb _ => by
    have h1 := tree_fits ha
    have h2 := tree_fits hb
    refine .plain (fun _ h => h2.grows (h1.grows h)) ?_ rfl
    intro Δ hΔ id d h
    cases c with
    | true => rw [lower] at h <;> cases h
    | false =>
      rw [lower] at h
      exact Scoped.two h (fun a b ha hb => by rw [Legal]; exact ⟨ha, hb⟩) (h1.legal Δ fun _ h => hΔ (h2.grows h))
        (h2.legal Δ hΔ)
  | _, _, _, .array hl _ => by
    have h1 := items_fits hl
    exact .plain h1.grows (fun Δ hΔ => .array (h1.legal Δ hΔ)) rfl
  | _, _, _, .bin ha hb => by
    have h1 := tree_fits ha
    have h2 := tree_fits hb
    exact .plain (fun _ h => h2.grows (h1.grows h))
      (fun Δ hΔ => .bin (h1.legal Δ fun _ h => hΔ (h2.grows h)) (h2.legal Δ hΔ)) rfl
  | _, _, _, .un ha => by
    have h1 := tree_fits ha
    exact .plain h1.grows (fun Δ hΔ => .un (h1.legal Δ hΔ)) rfl
  | _, _, Γ', .index (b := b) (l := l) hb hl => by
    have h1 := tree_fits hb
    have h2 := items_fits hl
    by_cases hi : ∃ i, l = [i]
    · obtain ⟨i, rfl⟩ := hi
      have key : ∀ {Δ : List Chars} {id : Names}, Γ' ⊆ Δ → ∀ b' i', lower id b = some b' → lower id i = some i' →
          Legal (Has Δ id) True true b' ∧ Legal (Has Δ id) True true i' := by
        intro Δ id hΔ b' i' e1 e2
        have h3 := h2.legal Δ hΔ id (.cons i' .nil) (by rw [lowerAll, e2, lowerAll])
        rw [LegalAll] at h3
        exact ⟨h1.legal Δ (fun _ h => hΔ (h2.grows h)) id _ e1, h3.1⟩
      exact {
        grows := fun _ h => h2.grows (h1.grows h)
        legal := by
          intro Δ hΔ id c h
          rw [lower] at h
          obtain ⟨b', i', e1, e2, rfl⟩ := both_some h
          rw [Legal]
          exact key hΔ b' i' e1 e2
        into := by
          intro Δ hΔ _ id r c hr h
          rw [assign] at h
          obtain ⟨b', i', r', e1, e2, e3, rfl⟩ := three_some h
          rw [Legal]
          obtain ⟨k1, k2⟩ := key hΔ b' i' e1 e2
          exact ⟨k1, k2, hr _ e3⟩
        var := fun _ _ _ => trivial }
    · exact {
        grows := fun _ h => h2.grows (h1.grows h)
        legal := by
          intro Δ hΔ id c h
          rw [lower_index_many (fun i h => hi ⟨i, h⟩)] at h
          cases h
        into := by
          intro Δ hΔ _ id r c hr h
          rw [assign_index_many (fun i h => hi ⟨i, h⟩)] at h
          cases h
        var := fun _ _ _ => trivial }
  | _, _, _, .if_ ha hb hc => by
    have h1 := tree_fits ha
    have h2 := tree_fits hb
    have h3 := tree_fits hc
    exact .plain (fun _ h => h3.grows (h2.grows (h1.grows h)))
      (fun Δ hΔ => .if_ (h1.legal Δ fun _ h => hΔ (h3.grows (h2.grows h))) (h2.legal Δ fun _ h => hΔ (h3.grows h))
        (h3.legal Δ hΔ)) rfl
  | _, _, _, .call _ hl => by
    have h1 := items_fits hl
    exact send_fits (r := .SelfValue) (Γ := _) (.plain (fun _ h => h) (by intro Δ _ id c h; cases h; rw [Legal]; trivial) rfl) h1
  | _, _, _, .send hr _ _ _ hl => send_fits (tree_fits hr) (items_fits hl)
  | _, _, _, .assign ht hl hr => by
    have h1 := tree_fits hl
    have h2 := tree_fits hr
    refine .plain (fun _ h => h2.grows (h1.grows h)) (fun Δ hΔ => ?_) rfl
    exact .assign1 (h1.into Δ (fun _ h => hΔ (h2.grows h)) (by rintro x rfl; cases ht)) (h2.legal Δ hΔ)
  | _, _, _, .assignNew (x := x) _ _ hr => by
    have h2 := tree_fits hr
    refine .plain (fun _ h => h2.grows (List.mem_cons_of_mem _ h)) (fun Δ hΔ => ?_) rfl
    refine .assign1 (fun id r c hr h => ?_) (h2.legal Δ hΔ)
    rw [assign] at h
    obtain ⟨r', rfl, rfl⟩ := map_some h
    rw [Legal]
    exact ⟨List.mem_map_of_mem (hΔ (h2.grows (List.mem_cons_self ..))), hr _ rfl⟩
  | _, _, _, .assignOp _ ht hl hr => by
    have h1 := tree_fits hl
    have h2 := tree_fits hr
    refine .plain (fun _ h => h2.grows (h1.grows h)) (fun Δ hΔ => ?_) rfl
    exact .assignOp (h1.legal Δ fun _ h => hΔ (h2.grows h))
      (h1.into Δ (fun _ h => hΔ (h2.grows h)) (by rintro x rfl; cases ht)) (h2.legal Δ hΔ)
  | _, _, _, .assignOpNew (x := x) (Γ' := Γ') _ _ _ hr => by
    have h2 := tree_fits hr
    have hsub := subset_varsAfter (.Ident x) Γ'
    refine .plain (fun _ h => hsub (h2.grows h)) (fun Δ hΔ => ?_) rfl
    refine .assignOp (by intro id c h; cases h; rw [Legal]; trivial) (fun id r c hr h => ?_)
      (h2.legal Δ fun _ h => hΔ (hsub h))
    rw [assign] at h
    obtain ⟨r', rfl, rfl⟩ := map_some h
    rw [Legal]
    exact ⟨List.mem_map_of_mem (hΔ (mem_varsAfter x Γ')), hr _ rfl⟩
  | _, _, _, .defined h => .plain (tree_fits h).grows
      (by intro Δ _ id c h; rw [lower] at h <;> cases h) rfl
  | _, _, _, .seq _ hl => by
    have h1 := stmts_fits hl
    exact .plain h1.grows (fun Δ hΔ => .seq (h1.legal Δ hΔ)) rfl

theorem items_fits : ∀ {Γ l Γ'}, Items Γ l Γ' → FitsAll Γ l Γ'
  | _, _, _, .nil => ⟨fun _ h => h, fun _ _ => .nil⟩
  | _, _, _, .cons he hl => by
    have h1 := tree_fits he
    have h2 := items_fits hl
    exact ⟨fun _ h => h2.grows (h1.grows h), fun Δ hΔ => .cons (h1.legal Δ fun _ h => hΔ (h2.grows h)) (h2.legal Δ hΔ)⟩
  | _, _, _, .splat he hl => by
    have h1 := tree_fits he
    have h2 := items_fits hl
    exact ⟨fun _ h => h2.grows (h1.grows h), fun Δ hΔ => .cons (nosplat _) (h2.legal Δ hΔ)⟩

theorem stmts_fits : ∀ {Γ l Γ'}, Stmts Γ l Γ' → FitsAll Γ l Γ'
  | _, _, _, .nil => ⟨fun _ h => h, fun _ _ => .nil⟩
  | _, _, _, .cons he hl => by
    have h1 := tree_fits he
    have h2 := stmts_fits hl
    exact ⟨fun _ h => h2.grows (h1.grows h), fun Δ hΔ => .cons (h1.legal Δ fun _ h => hΔ (h2.grows h)) (h2.legal Δ hΔ)⟩
end

theorem ScopedAll.one {e : Parser.Node} (h : Scoped Δ e) : ScopedAll Δ [e] := .cons h .nil

theorem values_scoped {n : Nat} {l : List Parser.Node} (h : ScopedAll Δ l) : ScopedAll Δ (values n l) := by
  unfold values
  split
  · exact .one (.array h)
  · exact h

theorem ScopedAll.head {e : Parser.Node} (h : ScopedAll Δ [e]) : Scoped Δ e := by
  intro id c hc
  have := h id (.cons c .nil) (by rw [lowerAll, hc, lowerAll])
  rw [LegalAll] at this
  exact this.1

theorem seq_scoped {l : List Parser.Node} (h : ScopedAll Δ l) : Scoped Δ (Parser.seq l) := by
  unfold Parser.seq
  split
  · exact h.head
  · exact .seq h

theorem modifier_scoped {c e : Parser.Node} (hc : Scoped Δ c) (he : Scoped Δ e) (o : Modifier) : Scoped Δ (o.node c e) := by
  cases o
  · exact .if_ hc he .seq_nil
  · exact .if_ hc .seq_nil he
  · exact .while_ hc he
  · exact .while_ hc he

theorem values_one {l : List Parser.Node} {n : Nat} {r : Parser.Node} (h : values n l = [r]) (hl : ScopedAll Δ l) :
    Scoped Δ r := (h ▸ values_scoped hl : ScopedAll Δ [r]).head

/-- A statement that stands between `Γ` and `Γ'`. -/
def Sits (Γ : List Chars) (e : Parser.Node) (Γ' : List Chars) : Prop := Γ ⊆ Γ' ∧ ∀ Δ, Γ' ⊆ Δ → Scoped Δ e

theorem Sits.binop {Γ Γ₁ Γ₂ : List Chars} {a b : Parser.Node} {op : Lexer.BinOp} (h1 : Sits Γ a Γ₁) (h2 : Sits Γ₁ b Γ₂) :
    Sits Γ (.BinOp op a b) Γ₂ :=
  ⟨fun _ h => h2.1 (h1.1 h), fun Δ hΔ => .bin (h1.2 Δ fun _ h => hΔ (h2.1 h)) (h2.2 Δ hΔ)⟩

theorem Sits.if_ {Γ Γ₁ Γ₂ Γ₃ : List Chars} {a b c : Parser.Node} (h1 : Sits Γ a Γ₁) (h2 : Sits Γ₁ b Γ₂) (h3 : Sits Γ₂ c Γ₃) :
    Sits Γ (.If a b c) Γ₃ ∧ Sits Γ (.If a c b) Γ₃ := by
  have hg : Γ ⊆ Γ₃ := fun _ h => h3.1 (h2.1 (h1.1 h))
  exact ⟨⟨hg, fun Δ hΔ => .if_ (h1.2 Δ fun _ h => hΔ (h3.1 (h2.1 h))) (h2.2 Δ fun _ h => hΔ (h3.1 h)) (h3.2 Δ hΔ)⟩,
    hg, fun Δ hΔ => .if_ (h1.2 Δ fun _ h => hΔ (h3.1 (h2.1 h))) (h3.2 Δ hΔ) (h2.2 Δ fun _ h => hΔ (h3.1 h))⟩

theorem Sits.empty {Γ : List Chars} : Sits Γ (.CompStmt []) Γ := ⟨fun _ h => h, fun _ _ => .seq_nil⟩

theorem Sits.while_ {Γ Γ₁ Γ₂ : List Chars} {a b : Parser.Node} {x : Bool} (h1 : Sits Γ a Γ₁) (h2 : Sits Γ₁ b Γ₂) :
    Sits Γ (.While a b x) Γ₂ :=
  ⟨fun _ h => h2.1 (h1.1 h), fun Δ hΔ => .while_ (h1.2 Δ fun _ h => hΔ (h2.1 h)) (h2.2 Δ hΔ)⟩

theorem Fits.sits {Γ Γ' : List Chars} {e : Parser.Node} (h : Fits Γ e Γ') : Sits Γ e Γ' := ⟨h.grows, h.legal⟩

theorem Sits.jumpNil {Γ : List Chars} (j : Jump) : Sits Γ (j.node .Nil) Γ := ⟨fun _ h => h, fun _ _ => Scoped.nil.jump j⟩

theorem target_scoped {Γ Γ₁ Γ₂ : List Chars} {l : Parser.Node} (h : Fits Γ l Γ₁) (hg : varsAfter l Γ₁ ⊆ Γ₂)
    (hΔ : Γ₂ ⊆ Δ) : ScopedTo Δ l :=
  h.into Δ (fun _ h => hΔ (hg (subset_varsAfter l Γ₁ h))) (by rintro x rfl; exact hΔ (hg (mem_varsAfter x Γ₁)))

mutual
theorem arg_sits : ∀ {m Γ s e Γ'}, Arg m Γ s e Γ' → Sits Γ e Γ'
  | _, _, _, _, _, .tree h => (tree_fits h).sits
  | _, _, _, _, _, .if_ h => ifThen_sits h
  | _, _, _, _, _, .unless hc _ hb => (Sits.if_ (expr_sits hc) (body_sits hb) .empty).2
  | _, _, _, _, _, .unlessElse hc _ hb hb₂ => (Sits.if_ (expr_sits hc) (body_sits hb) (body_sits hb₂)).2
  | _, _, _, _, _, .while hc hb => .while_ (expr_sits hc) (body_sits hb)
  | _, _, _, _, _, .until hc hb => .while_ (expr_sits hc) (body_sits hb)
  | _, _, _, _, _, .jump j h => by
    have h1 := (tree_fits h).sits
    exact ⟨h1.1, fun Δ hΔ => (h1.2 Δ hΔ).jump j⟩
  | _, _, _, _, _, .jumpList j h _ => by
    have h1 := stmts_fits h
    exact ⟨h1.grows, fun Δ hΔ => (Scoped.array (h1.legal Δ hΔ)).jump j⟩
  | _, _, _, _, _, .unmatch ha hb => by
    have h1 := (tree_fits ha).sits.binop (op := .Match) (tree_fits hb).sits
    exact ⟨h1.1, fun Δ hΔ => (h1.2 Δ hΔ).un⟩
  | _, _, _, _, _, .assign _ hl hr => by
    have h1 := tree_fits hl
    have h2 := arg_sits hr
    exact ⟨fun _ h => h2.1 (subset_varsAfter _ _ (h1.grows h)), fun Δ hΔ =>
      .assign1 (target_scoped h1 h2.1 hΔ) (h2.2 Δ hΔ)⟩
  | _, _, _, _, _, .assignList (r := r) _ hl _ hr => by
    have h1 := tree_fits hl
    have h2 := items_fits hr
    refine ⟨fun _ h => h2.grows (subset_varsAfter _ _ (h1.grows h)), fun Δ hΔ => ?_⟩
    by_cases hv : ∃ v, values 1 r = [v]
    · obtain ⟨v, hv⟩ := hv
      rw [hv]
      exact .assign1 (target_scoped h1 h2.grows hΔ) (values_one hv (h2.legal Δ hΔ))
    · exact .massign (by
        intro l' hl'
        rw [List.mem_singleton] at hl'
        subst hl'
        exact h1.var Δ (fun _ h => hΔ (h2.grows (subset_varsAfter _ _ h)))
          (by rintro x rfl; exact hΔ (h2.grows (mem_varsAfter x _)))) (values_scoped (h2.legal Δ hΔ))
        (fun l r _ h => hv ⟨r, h⟩)
  | _, _, _, _, _, .defn .. => ⟨fun _ h => h, fun _ _ => by intro id c h; rw [lower] at h <;> cases h⟩
  | _, _, _, _, _, .defEmpty .. => ⟨fun _ h => h, fun _ _ => by intro id c h; rw [lower] at h <;> cases h⟩

theorem expr_sits : ∀ {m Γ s e Γ'}, Expr m Γ s e Γ' → Sits Γ e Γ'
  | _, _, _, _, _, .arg h => arg_sits h
  | _, _, _, _, _, .mulAssign (l := l) (ls := ls) (Γ₂ := Γ₂) _ hl hls hs _ hr => by
    have h1 := tree_fits hl
    have h2 := items_fits hr
    have h3 := subset_varsAfterAll (l :: ls) Γ₂
    refine ⟨fun _ h => h3 (h2.grows (h1.grows h)), fun Δ hΔ => ?_⟩
    refine .massign ?_ (values_scoped (h2.legal Δ fun _ h => hΔ (h3 h))) (fun a b e => ?_)
    · intro l' hl'
      rcases List.mem_cons.1 hl' with rfl | hm
      · exact h1.var Δ (fun _ h => hΔ (h3 (h2.grows h)))
          (by rintro x rfl; exact hΔ (mem_varsAfterAll Γ₂ (by simp)))
      · cases hs l' hm with
        | lvar _ hx => exact hΔ (h3 (h2.grows hx))
        | ident _ _ => exact hΔ (mem_varsAfterAll Γ₂ (by simp [hm]))
        | ivar _ => trivial
        | gvar _ => trivial
        | cvar _ => trivial
    · simp only [List.cons.injEq] at e
      exact absurd e.2 hls
  | _, _, _, _, _, .and ha hb => .binop (expr_sits ha) (arg_sits hb)
  | _, _, _, _, _, .or ha hb => .binop (expr_sits ha) (arg_sits hb)

theorem ifThen_sits : ∀ {m Γ s e Γ'}, IfThen m Γ s e Γ' → Sits Γ e Γ'
  | _, _, _, _, _, .one hc _ hb => (Sits.if_ (expr_sits hc) (body_sits hb) .empty).1
  | _, _, _, _, _, .els hc _ hb hb₂ => (Sits.if_ (expr_sits hc) (body_sits hb) (body_sits hb₂)).1
  | _, _, _, _, _, .elsif hc _ hb h => (Sits.if_ (expr_sits hc) (body_sits hb) (ifThen_sits h)).1

theorem body_sits : ∀ {m Γ s e Γ'}, Body m Γ s e Γ' → Sits Γ e Γ'
  | _, _, _, _, _, .none => .empty
  | _, _, _, _, _, .some h => by
    have h1 := lines_fits h
    exact ⟨h1.grows, fun Δ hΔ => seq_scoped (h1.legal Δ hΔ)⟩

theorem lines_fits : ∀ {m Γ s l Γ'}, Lines m Γ s l Γ' → FitsAll Γ l Γ'
  | _, _, _, _, _, .one h => by
    have h1 := line_sits h
    exact ⟨h1.1, fun Δ hΔ => .one (h1.2 Δ hΔ)⟩
  | _, _, _, _, _, .more h hl => by
    have h1 := line_sits h
    have h2 := lines_fits hl
    exact ⟨fun _ h => h2.grows (h1.1 h), fun Δ hΔ => .cons (h1.2 Δ fun _ h => hΔ (h2.grows h)) (h2.legal Δ hΔ)⟩

theorem line_sits : ∀ {m Γ s e Γ'}, Line m Γ s e Γ' → Sits Γ e Γ'
  | _, _, _, _, _, .statement h => statement_sits h
  | _, _, _, _, _, .jump j => .jumpNil j
  | _, _, _, _, _, .jumpIf j hc => (Sits.if_ (expr_sits hc) (.jumpNil j) .empty).1
  | _, _, _, _, _, .jumpUnless j hc => (Sits.if_ (expr_sits hc) (.jumpNil j) .empty).2

theorem statement_sits : ∀ {m Γ s e Γ'}, Statement m Γ s e Γ' → Sits Γ e Γ'
  | _, _, _, _, _, .expr h => expr_sits h
  | _, _, _, _, _, .modified o h hc => by
    have h1 := statement_sits h
    have h2 := expr_sits hc
    exact ⟨fun _ h => h2.1 (h1.1 h), fun Δ hΔ => modifier_scoped (h2.2 Δ hΔ) (h1.2 Δ fun _ h => hΔ (h2.1 h)) o⟩
end

end Verif.Pipeline
