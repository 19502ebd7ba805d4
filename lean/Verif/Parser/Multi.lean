import Verif.Parser.Block
/-!
# Assignment of forms and multiple assignment: lemmas for C49
-/
namespace Verif.Parser
open Verif.Lexer (Chars Unicode BinOp Punct Reserved Tok Name Text Ends read_token is_space is_alpha C73_token C73_space)

section
variable {U : Unicode} {m d : _root_.Bool} {p k : Nat} {s r rest t : Chars} {Γ Γ₁ Γ₂ Γ₃ Γ' : List Chars}
  {e x l v : Node} {es ls : List Node}

theorem arg_tree (hns : ∀ x, e ≠ .Splat x) (h : Claim U Γ e Γ') : ArgClaim U m Γ (print 2 e) e Γ' := by
  refine ⟨(h.print_starts (k := 2) (p := 2) (by omega) (by omega)).opening (by omega), hns, fun d rest ha => ?_⟩
  obtain ⟨e', h1, h2⟩ := h.print_good (k := 2) (p := 2) (by omega) (by omega) (by omega) m d rest ha.1
  exact ⟨e', h1.strip, h2⟩

/-! ## Values -/

theorem splat_any {l l' : List Node} (h : l'.map Node.is_splat = l.map Node.is_splat) :
    l'.any Node.is_splat = l.any Node.is_splat := by
  have := congrArg (fun b => b.any id) h
  simpa [List.any_map, Function.comp_def] using this

/-- begins with a space -/
def Spaced (s : Chars) : Prop := ∃ s', s = ' ' :: s'

theorem Spaced.ends (h : Spaced s) (r : Chars) : Ends (s ++ r) := by
  obtain ⟨s', rfl⟩ := h; exact ends_sp _

theorem Spaced.append (h : Spaced s) (r : Chars) : Spaced (s ++ r) := by
  obtain ⟨s', rfl⟩ := h; exact ⟨_, rfl⟩

theorem Spaced.ends' (h : Spaced s) : Ends s := by
  obtain ⟨s', rfl⟩ := h; exact ends_sp _

/-- the values as parsed -/
structure ValuesAs (l l' : List Node) : Prop where
  strip : stripAll l' = l
  const : l'.all Node.is_const_expr = l.all Node.is_const_expr
  splat : l'.map Node.is_splat = l.map Node.is_splat

theorem values_strip {l' ts : List Node} (h : ValuesAs es l') :
    strip (new_mul_assign ts l') = .MulAssign (stripTargets ts) (values ts.length es) := by
  have h1 : l'.length = es.length := by rw [← h.strip, stripAll_length]
  have h2 : l'.any Node.is_splat = es.any starred := by
    rw [splat_any h.splat, show Node.is_splat = starred from funext fun e => by cases e <;> rfl]
  unfold new_mul_assign values
  rw [h2, h1]
  cases hc : (es.any starred || (ts.length == 1 && es.length != 1))
  · show Node.MulAssign (stripTargets ts) (stripAll l') = _
    rw [h.strip]; rfl
  · show Node.MulAssign (stripTargets ts) [.Array (stripAll l') (l'.all Node.is_const_expr)] = _
    rw [h.strip, h.const]; rfl

theorem bare_item {args : List Node} {y : List Node} {st' : St}
    (h : Runs rhsItem (env U true d) ⟨s, Γ⟩ e ⟨rest, Γ'⟩)
    (h' : Runs (fun p => do
      if ← consume_punct .Comma then p.rhs_loop none (args ++ [e]) else return args ++ [e]) (env U true d) ⟨rest, Γ'⟩ y st') :
    Runs (fun p => p.rhs_loop none args) (env U true d) ⟨s, Γ⟩ y st' := by
  refine Runs.up (g := fun p => parse_mul_assign_rhs_loop p none args) (fun _ => rfl) ?_
  unfold parse_mul_assign_rhs_loop parse_rhs_item
  exact Runs.bind h h'

theorem bare_end {args : List Node} (hf : Follow U false 1 rest) : Runs (fun p => do
    if ← consume_punct .Comma then p.rhs_loop none args else return args) (env U true d) ⟨rest, Γ⟩ args ⟨rest, Γ⟩ := by
  obtain ⟨⟨t1, a1, t2, a2, g1, g2, g3, g4⟩, -⟩ := hf
  refine Runs.no (consume_punct_no g3 (skip_ne g2 g4 (by beyond) (by simp [start]))) ?_
  exact Runs.pure _

theorem items_space (h : Items Γ es Γ') (hne : es ≠ []) : Spaced (items 2 es) := by
  have U : Unicode := ⟨fun _ => false, fun _ => false⟩
  cases h with
  | nil => exact absurd rfl hne
  | cons h1 h2 =>
    obtain ⟨s, hs⟩ := (item_tree h1.not_splat (tree_claim U h1).1).space 2 (by omega) (by omega)
    show Spaced (print 2 _ ++ more 2 _)
    rw [hs]; exact ⟨_, rfl⟩
  | splat h1 h2 =>
    obtain ⟨s, hs⟩ := (item_splat (tree_claim U h1).1).space 2 (by omega) (by omega)
    show Spaced (print 2 _ ++ more 2 _)
    rw [hs]; exact ⟨_, rfl⟩

/-- values without brackets around them -/
theorem bare_run (h : Items Γ es Γ') (hne : es ≠ []) (args : List Node) (hf : Follow U false 1 rest) : ∃ l', ValuesAs es l' ∧
    Runs (fun p => p.rhs_loop none args) (env U true d) ⟨items 2 es ++ rest, Γ⟩ (args ++ l') ⟨rest, Γ'⟩ := by
  induction es generalizing Γ args with
  | nil => exact absurd rfl hne
  | cons e es ih =>
    obtain ⟨Γ₁, hi, hrest⟩ : ∃ Γ₁, ItemClaim U Γ e Γ₁ ∧ Items Γ₁ es Γ' := by
      cases h with
      | cons h1 h2 => exact ⟨_, item_tree h1.not_splat (tree_claim U h1).1, h2⟩
      | splat h1 h2 => exact ⟨_, item_splat (tree_claim U h1).1, h2⟩
    cases es with
    | nil =>
      cases hrest
      obtain ⟨e', h1, h2, h3, h4⟩ := hi.rhs d rest hf.single
      refine ⟨[e'], ⟨by rw [← h1]; rfl, by simp [h2], by simp [h3]⟩, ?_⟩
      rw [items_one, List.append_nil]
      exact bare_item h4 (bare_end hf)
    | cons e2 es =>
      have hsp := items_space hrest (by simp)
      have htok : read_token U (' ' :: ([','] ++ (items 2 (e2 :: es) ++ rest))) = _ := read_text text_comma (hsp.ends rest)
      obtain ⟨e', h1, h2, h3, h4⟩ := hi.rhs d (' ' :: ([','] ++ (items 2 (e2 :: es) ++ rest)))
        (follow_op text_comma (k := 1) rfl (by omega) (by simp) (by simp) (.inr (hsp.append _)))
      obtain ⟨l', hl1, hl2⟩ := ih hrest (by simp) (args ++ [e'])
      refine ⟨e' :: l', ⟨?_, by rw [List.all_cons, h2, hl1.const]; rfl, by rw [List.map_cons, h3, hl1.splat]; rfl⟩, ?_⟩
      · show strip e' :: stripAll l' = _
        rw [h1, hl1.strip]
      · rw [items_cons, List.append_assoc]
        refine bare_item (by rw [List.cons_append, List.append_assoc]; exact h4) ?_
        rw [List.append_assoc] at hl2
        exact Runs.yes (consume_punct_yes (skips_of (fl := env U true d) htok rfl)) hl2

theorem bare_rhs (h : Items Γ es Γ') (hne : es ≠ []) (hf : Follow U false 1 rest) : ∃ l', ValuesAs es l' ∧
    Runs (fun p => p.rhs_if_allowed) (env U false d) ⟨items 2 es ++ rest, Γ⟩ l' ⟨rest, Γ'⟩ := by
  obtain ⟨l', h1, h2⟩ := bare_run (d := d) h hne [] hf
  refine ⟨l', h1, Runs.up (g := fun p => parse_mul_assign_rhs_if_allowed p) (fun _ => rfl) ?_⟩
  show Runs (fun p => p.rhs none) _ _ _ _
  refine Runs.up (g := fun p => parse_mul_assign_rhs p none) (fun _ => rfl) ?_
  unfold parse_mul_assign_rhs
  exact Runs.env h2

/-- a single value, which may be a form -/
theorem form_rhs (h : ArgClaim U true Γ s v Γ') (ha : After U m rest) : ∃ v', strip v' = v ∧
    Runs (fun p => p.rhs_if_allowed) (env U m d) ⟨s ++ rest, Γ⟩ [v'] ⟨rest, Γ'⟩ := by
  obtain ⟨v', h1, h2⟩ := h.run d rest ⟨ha.1.single, ha.2⟩
  refine ⟨v', h1, Runs.up (g := fun p => parse_mul_assign_rhs_if_allowed p) (fun _ => rfl) ?_⟩
  cases m with
  | true =>
    show Runs (fun p => (do return [← p.arg] : P (List Node))) _ _ _ _
    exact Runs.bind h2 (Runs.pure _)
  | false =>
    show Runs (fun p => p.rhs none) _ _ _ _
    refine Runs.up (g := fun p => parse_mul_assign_rhs p none) (fun _ => rfl) ?_
    unfold parse_mul_assign_rhs
    refine Runs.env ?_
    refine bare_item (args := []) ?_ (bare_end ha.1)
    obtain ⟨t, a, g1, g2, g3, g4, g5, g6, g7⟩ := h.opening.token ha.1.ends
    unfold rhsItem
    exact Runs.no (consume_punct_no (skips_of (fl := env U true d) g1 g2) g6) h2

/-! ## One target -/

theorem arg_assign_of {e : Node} {P : List Node → Prop} (hns : ∀ x, e ≠ .Splat x) (h1 : Claim U Γ l Γ₁) (hs : Spaced s)
    (hrhs : ∀ d rest, After U m rest → ∃ vs, P vs ∧
      Runs (fun p => p.rhs_if_allowed) (env U m d) ⟨s ++ rest, varsAfter l Γ₁⟩ vs ⟨rest, Γ₂⟩)
    (hstrip : ∀ l' vs, Any 17 l l' → P vs → strip (new_mul_assign [l'] vs) = e) :
    ArgClaim U m Γ (print 17 l ++ (word "=" ++ s)) e Γ₂ := by
  have hst := h1.print_starts (k := 15) (p := 17) (by omega) (by omega)
  refine ⟨(hst.opening (by omega)).append fun rest _ => ends_sp _, hns, fun d rest ha => ?_⟩
  have hf : Follow U m 14 (word "=" ++ (s ++ rest)) := by
    refine follow_op (r := s ++ rest) text_assign (k := 14) rfl (by omega) (by simp) (by simp) ?_
    exact .inr (hs.append _)
  obtain ⟨l', hl1, hl2⟩ := h1.print_good (k := 15) (p := 17) (by omega) (by omega) (by omega) m d _ hf
  obtain ⟨vs, hv1, hv2⟩ := hrhs d rest ha
  refine ⟨new_mul_assign [l'] vs, hstrip l' vs hl1 hv1, ?_⟩
  rw [List.append_assoc, List.append_assoc]
  have hbg := hst.2 (word "=" ++ (s ++ rest)) (ends_sp _)
  refine chain_le (j := 14) (k := 2) (by omega) (by omega) (by omega) (hbg.mono (by omega)).opens ha.1
    (unary_minus_of hbg.opens hl2 ?_)
  refine acc_assign_eq rfl ?_
  refine Runs.yes (cpn_yes (read_eq (hs.ends rest)) (by simp)) ?_
  refine Runs.step check_lhs_eq ?_
  rw [lhs_vars hl1]
  exact Runs.bind hv2 (Runs.pure _)

theorem arg_assign (hlv : 17 ≤ lvl l) (h1 : Claim U Γ l Γ₁) (h2 : ArgClaim U true (varsAfter l Γ₁) s v Γ₂) :
    ArgClaim U m Γ (print 17 l ++ (word "=" ++ s)) (.MulAssign [l] [v]) Γ₂ := by
  refine arg_assign_of (P := fun vs => ∃ v', vs = [v'] ∧ strip v' = v) (by simp) h1 h2.opening.1 ?_ ?_
  · intro d rest ha
    obtain ⟨v', hv1, hv2⟩ := form_rhs (d := d) h2 ha
    exact ⟨_, ⟨v', rfl, hv1⟩, hv2⟩
  · rintro l' vs hl ⟨v', rfl, hv⟩
    rw [mul_assign_one hv h2.plain]
    show Node.MulAssign [if isList l' then l' else strip l'] [strip v'] = _
    rw [lhs_plain hlv hl, hv]

theorem arg_assign_list (hlv : 17 ≤ lvl l) (h1 : Claim U Γ l Γ₁) (hne : es ≠ []) (h2 : Items (varsAfter l Γ₁) es Γ₂) :
    ArgClaim U false Γ (print 17 l ++ (word "=" ++ items 2 es)) (.MulAssign [l] (values 1 es)) Γ₂ := by
  refine arg_assign_of (P := ValuesAs es) (by simp) h1 (items_space h2 hne) (fun d rest ha => bare_rhs h2 hne ha.1) ?_
  intro l' vs hl hv
  rw [values_strip hv]
  show Node.MulAssign [if isList l' then l' else strip l'] _ = _
  rw [lhs_plain hlv hl]; rfl

/-! ## Several targets -/

/-- a target after the first -/
theorem simple_run {fl : Env} (hS : Simple Γ e) (hf : Follow fl.U m 16 rest) :
    Runs (fun p => p.method_call) fl ⟨print 17 e ++ rest, Γ⟩ e ⟨rest, Γ⟩ := by
  have key : ∀ {w : Chars} {tok : Tok}, Text w tok → is_line_tok tok = false → tok ≠ .Reserved .Yield →
      (Skips fl.U (' ' :: (w ++ rest)) tok rest → Runs (fun p => parse_primary p false) fl ⟨' ' :: (w ++ rest), Γ⟩ e ⟨rest, Γ⟩) →
      Runs (fun p => p.method_call) fl ⟨' ' :: (w ++ rest), Γ⟩ e ⟨rest, Γ⟩ := by
    intro w tok ht hl hy hrun
    have hs : Skips fl.U (' ' :: (w ++ rest)) tok rest := skips_of (read_text ht hf.ends) hl
    refine Runs.up (g := fun p => parse_method_call p) (fun _ => rfl) ?_
    unfold parse_method_call
    refine Runs.no (consume_reserved_no hs hy) ?_
    refine Runs.bind (Runs.up (f := fun p => p.primary false) (g := fun p => parse_primary p false) (fun _ => rfl) (hrun hs)) ?_
    obtain ⟨⟨t1, a1, t2, a2, h1, h2, h3, h4⟩, -⟩ := hf
    refine Runs.up (g := fun p => parse_method_call_loop p e) (fun _ => rfl) ?_
    unfold parse_method_call_loop
    refine Runs.no (consume_punct_no h3 (skip_ne h2 h4 (by beyond) (by simp [start]))) ?_
    refine Runs.no (cpn_no h1 (ne_of_stops h2 (by beyond))) ?_
    refine Runs.no (cpn_no h1 (ne_of_stops h2 (by beyond))) ?_
    refine Runs.no (cpn_no h1 (ne_of_stops h2 (by beyond))) ?_
    exact Runs.pure _
  cases hS with
  | ivar h =>
    refine key h rfl (by simp) fun hs => ?_
    unfold parse_primary
    exact Runs.step (get_eq hs (by simp)) (Runs.pure _)
  | gvar h =>
    refine key h rfl (by simp) fun hs => ?_
    unfold parse_primary
    exact Runs.step (get_eq hs (by simp)) (Runs.pure _)
  | cvar h =>
    refine key h rfl (by simp) fun hs => ?_
    unfold parse_primary
    exact Runs.step (get_eq hs (by simp)) (Runs.pure _)
  | lvar h hx =>
    refine key h.1 rfl (by simp) fun hs => ?_
    unfold parse_primary
    refine Runs.step (get_eq hs (by simp)) ?_
    simp only [parse_ident_name h]
    refine Runs.no (lparen_no hf.paren) ?_
    exact Runs.yes (local_eq (by simpa using hx)) (Runs.pure _)
  | @ident x h hx =>
    refine key h.1 rfl (by simp) fun hs => ?_
    unfold parse_primary
    refine Runs.step (get_eq hs (by simp)) ?_
    simp only [parse_ident_name h]
    refine Runs.no (lparen_no hf.paren) ?_
    refine Runs.no (local_eq (by simpa using hx)) ?_
    obtain ⟨⟨t1, a1, t2, a2, h1, h2, -⟩, -, -, hc⟩ := hf
    unfold parse_new_ident
    refine ⟨0, fun n _ => ?_⟩
    show (match read_token fl.U rest with
      | .ok (.Punct .Comma, _) => (pure (.Ident x) : P Node)
      | .ok (.Punct .LBrace, _) => parse_function_args (level n) x
      | .ok (.Reserved .Do, _) => parse_function_args (level n) x
      | _ => do
        if !false && (← is_command) then parse_command (level n) x
        else return .Ident x) fl ⟨rest, Γ⟩ = _
    rw [h1]
    have hcmd : (do if !false && (← is_command) then parse_command (level n) x else return .Ident x : P Node)
        fl ⟨rest, Γ⟩ = .ok (.Ident x, ⟨rest, Γ⟩) := by
      rw [bind_ok (command_no hc)]; rfl
    cases t1 with
    | Punct q =>
      cases q <;> first
        | exact hcmd
        | rfl
        | exact absurd rfl (ne_of_stops h2 (by beyond))
    | Reserved r =>
      cases r <;> first
        | exact hcmd
        | exact absurd rfl (word_of_stops h2 rfl)
    | _ => exact hcmd

theorem simple_space (h : Simple Γ e) : ∃ w tok, print 17 e = ' ' :: w ∧ Text w tok ∧ tok ≠ .Punct .Assign := by
  cases h with
  | lvar h _ => exact ⟨_, _, rfl, h.1, by simp⟩
  | ident h _ => exact ⟨_, _, rfl, h.1, by simp⟩
  | ivar h => exact ⟨_, _, rfl, h, by simp⟩
  | gvar h => exact ⟨_, _, rfl, h, by simp⟩
  | cvar h => exact ⟨_, _, rfl, h, by simp⟩

theorem targets_space (h : ∀ x ∈ es, Simple Γ x) (hne : es ≠ []) : Spaced (items 17 es) := by
  cases es with
  | nil => exact absurd rfl hne
  | cons e es =>
    obtain ⟨w, tok, hw, -⟩ := simple_space (h e (by simp))
    show Spaced (print 17 e ++ more 17 es)
    rw [hw]; exact ⟨_, rfl⟩

/-- the targets after the first -/
theorem targets_run {fl : Env} (hr : Spaced r) (hne : es ≠ []) (h : ∀ x ∈ es, Simple Γ x) (nodes : List Node) :
    Runs (fun p => p.mlhs_loop nodes) fl ⟨items 17 es ++ (word "=" ++ r), Γ⟩ (nodes ++ es) ⟨word "=" ++ r, Γ⟩ := by
  induction es generalizing nodes with
  | nil => exact absurd rfl hne
  | cons e es ih =>
    have hS := h e (by simp)
    have start : ∀ rest y st', Ends rest → Follow fl.U false 16 rest → Runs (fun p => do
        if ← consume_punct_no_term .Comma then p.mlhs_loop (nodes ++ [e]) else return nodes ++ [e]) fl ⟨rest, Γ⟩ y st' →
        Runs (fun p => p.mlhs_loop nodes) fl ⟨print 17 e ++ rest, Γ⟩ y st' := by
      intro rest y st' hrest hf hy
      obtain ⟨w, tok, hw, ht, hna⟩ := simple_space hS
      refine Runs.up (g := fun p => parse_mlhs_loop p nodes) (fun _ => rfl) ?_
      unfold parse_mlhs_loop
      have htok : read_token fl.U (print 17 e ++ rest) = .ok (tok, rest) := by rw [hw]; exact read_text ht hrest
      refine Runs.no (st₁ := ⟨print 17 e ++ rest, Γ⟩) (by rw [peek_punct_eq htok]; simp [hna]) ?_
      exact Runs.bind (simple_run hS hf) hy
    cases es with
    | nil =>
      rw [items_one, List.append_nil]
      refine start _ _ _ (ends_sp _) ?_ ?_
      · refine follow_op (r := r) text_assign (k := 14) rfl (by omega) (by simp) (by simp) (.inr hr)
      · exact Runs.no (cpn_no (read_eq hr.ends') (by simp)) (Runs.pure _)
    | cons e2 es =>
      have hsp := targets_space (es := e2 :: es) (fun x hx => h x (by simp [hx])) (by simp)
      rw [items_cons, List.append_assoc]
      refine start _ _ _ (ends_sp _) ?_ ?_
      · rw [List.cons_append, List.append_assoc]
        exact follow_op text_comma (k := 2) rfl (by omega) (by simp) (by simp) (.inr (hsp.append _))
      · have := ih (by simp) (fun x hx => h x (by simp [hx])) (nodes ++ [e])
        rw [List.append_assoc] at this
        rw [List.cons_append, List.append_assoc]
        exact Runs.yes (cpn_yes (read_text text_comma (hsp.ends _)) (by simp)) this

theorem check_all {fl : Env} : check_lhs_all es fl ⟨s, Γ⟩ = .ok ((), ⟨s, varsAfterAll es Γ⟩) := by
  induction es generalizing Γ with
  | nil => rfl
  | cons e es ih =>
    show (check_lhs e >>= fun _ => check_lhs_all es) fl ⟨s, Γ⟩ = _
    rw [bind_ok check_lhs_eq]; exact ih

theorem simple_strip (h : Simple Γ e) : (if isList e then e else strip e) = e := by cases h <;> rfl

theorem simples_strip (h : ∀ x ∈ es, Simple Γ x) : stripTargets es = es := by
  induction es with
  | nil => rfl
  | cons e es ih =>
    show (if isList e then e else strip e) :: stripTargets es = _
    rw [simple_strip (h e (by simp)), ih fun x hx => h x (by simp [hx])]

theorem more_cons (p : Nat) (e : Node) (es : List Node) : more p (e :: es) = ' ' :: ([','] ++ items p (e :: es)) := rfl

theorem expr_mul_assign (hlv : 17 ≤ lvl l) (h1 : Claim U Γ l Γ₁) (hls : ls ≠ []) (hS : ∀ x ∈ ls, Simple Γ₁ x)
    (hne : es ≠ []) (h2 : Items Γ₁ es Γ₂) :
    ExprClaim U false Γ (print 17 l ++ (more 17 ls ++ (word "=" ++ items 2 es)))
      (.MulAssign (l :: ls) (values (ls.length + 1) es)) (varsAfterAll (l :: ls) Γ₂) := by
  have hst := h1.print_starts (k := 3) (p := 17) (by omega) (by omega)
  obtain ⟨l2, lt, rfl⟩ : ∃ l2 lt, ls = l2 :: lt := by
    cases ls with
    | nil => exact absurd rfl hls
    | cons a b => exact ⟨a, b, rfl⟩
  refine ⟨(hst.opening (by omega)).append fun rest _ => ends_sp _, fun d rest ha => ?_⟩
  have hv := (items_space h2 hne).append rest
  have hsp := targets_space hS (by simp)
  have hf : Follow U false 2 (' ' :: ([','] ++ (items 17 (l2 :: lt) ++ (word "=" ++ (items 2 es ++ rest))))) :=
    follow_op text_comma (k := 2) rfl (by omega) (by simp) (by simp) (.inr (hsp.append _))
  obtain ⟨l', hl1, hl2⟩ := h1.print_good (k := 3) (p := 17) (by omega) (by omega) (by omega) false d _ hf
  obtain ⟨vs, hv1, hv2⟩ := bare_rhs (d := d) h2 hne ha.1
  refine ⟨new_mul_assign (l' :: l2 :: lt) vs, ?_, fun x st' hx => ?_⟩
  · rw [values_strip hv1]
    show Node.MulAssign ((if isList l' then l' else strip l') :: stripTargets (l2 :: lt)) _ = _
    rw [lhs_plain hlv hl1, simples_strip hS]; rfl
  · have e : print 17 l ++ (more 17 (l2 :: lt) ++ (word "=" ++ items 2 es)) ++ rest =
        print 17 l ++ ' ' :: ([','] ++ (items 17 (l2 :: lt) ++ (word "=" ++ (items 2 es ++ rest)))) := by
      rw [more_cons]; simp
    rw [e]
    refine Runs.up (g := fun p => parse_expr p) (fun _ => rfl) ?_
    unfold parse_expr
    refine Runs.bind ?_ hx
    refine Runs.up (g := fun p => parse_not p) (fun _ => rfl) ?_
    unfold parse_not
    refine Runs.bind (chain2 ((hst.2 _ (ends_sp _)).opens) hf hl2) ?_
    refine Runs.yes (cpn_yes (read_text text_comma (hsp.ends _)) (by simp)) ?_
    refine Runs.up (g := fun p => parse_mul_assign p l') (fun _ => rfl) ?_
    unfold parse_mul_assign
    refine Runs.bind (Runs.env (targets_run (fl := { env U false d with acc := true }) hv (by simp) hS [l'])) ?_
    refine Runs.yes (cpn_yes (read_eq hv.ends') (by simp)) ?_
    refine Runs.bind hv2 ?_
    refine Runs.step (a := ()) (st₁ := ⟨rest, varsAfterAll (l :: l2 :: lt) Γ₂⟩) ?_ (Runs.pure _)
    rw [check_all]
    show Except.ok ((), (⟨rest, varsAfterAll (l2 :: lt) (varsAfter l' Γ₂)⟩ : St)) = _
    rw [lhs_vars hl1]; rfl

theorem Assignable.lvl (h : Assignable l) : 17 ≤ lvl l := by
  rcases h with h | ⟨x, rfl⟩
  · exact h.lvl
  · exact (by decide : 17 ≤ 18)

/-! ## Several values of a jump, and `!~` -/

theorem values_space (h : Stmts Γ (e :: es) Γ') : Spaced (items 3 (e :: es)) := by
  have U : Unicode := ⟨fun _ => false, fun _ => false⟩
  cases h with
  | cons h1 h2 =>
    obtain ⟨s, hs⟩ := ((tree_claim U h1).1.print_starts (k := 3) (p := 3) (by omega) (by omega)).1
    show Spaced (print 3 _ ++ more 3 _)
    rw [hs]; exact ⟨_, rfl⟩

/-- the values of a jump after the first -/
theorem break_values (h : Stmts Γ es Γ') (hne : es ≠ []) (args : List Node) (hf : Follow U m 2 rest)
    (hc : ∃ t a, read_token U rest = .ok (t, a) ∧ t ≠ .Punct .Comma) : ∃ l', stripAll l' = es ∧
    l'.all Node.is_const_expr = es.all Node.is_const_expr ∧
    Runs (fun p => p.break_loop args) (env U m d) ⟨items 3 es ++ rest, Γ⟩ (args ++ l') ⟨rest, Γ'⟩ := by
  induction es generalizing Γ args with
  | nil => exact absurd rfl hne
  | cons e es ih =>
    cases h with
    | cons h1 h2 =>
      have hcl := (tree_claim U h1).1
      cases es with
      | nil =>
        cases h2
        obtain ⟨e', k1, k2⟩ := hcl.print_arg (m := m) (d := d) hf
        refine ⟨[e'], by rw [← k1.strip]; rfl, by simp [(k1.const (by omega)).1], ?_⟩
        rw [items_one, List.append_nil]
        refine Runs.up (g := fun p => parse_break_loop p args) (fun _ => rfl) ?_
        unfold parse_break_loop
        refine Runs.bind k2 ?_
        obtain ⟨t, a, g1, g2⟩ := hc
        exact Runs.no (cpn_no (fl := env U m d) g1 g2) (Runs.pure _)
      | cons e2 es =>
        have hsp := values_space h2
        have htok : read_token U (' ' :: ([','] ++ (items 3 (e2 :: es) ++ rest))) = _ := read_text text_comma (hsp.ends rest)
        obtain ⟨e', k1, k2⟩ := hcl.print_arg (m := m) (d := d) (rest := ' ' :: ([','] ++ (items 3 (e2 :: es) ++ rest)))
          (follow_op text_comma (k := if m then 1 else 2) rfl (by split <;> omega) (by simp) (by simp) (.inr (hsp.append _)))
        obtain ⟨l', i1, i2, i3⟩ := ih h2 (by simp) (args ++ [e'])
        refine ⟨e' :: l', ?_, by rw [List.all_cons, i2, (k1.const (by omega)).1]; rfl, ?_⟩
        · show strip e' :: stripAll l' = _
          rw [k1.strip, i1]
        · rw [items_cons, List.append_assoc]
          refine Runs.up (g := fun p => parse_break_loop p args) (fun _ => rfl) ?_
          unfold parse_break_loop
          refine Runs.bind (by rw [List.cons_append, List.append_assoc]; exact k2) ?_
          rw [List.append_assoc] at i3
          exact Runs.yes (cpn_yes (fl := env U m d) htok (by simp)) i3

theorem arg_jump_list (j : Jump) (h : Stmts Γ (e :: es) Γ') (hne : es ≠ []) :
    ArgClaim U m Γ (word j.text ++ items 3 (e :: es)) (j.node (.Array (e :: es) ((e :: es).all Node.is_const_expr))) Γ' := by
  cases h with
  | cons h1 h2 =>
    have hcl := (tree_claim U h1).1
    have hs := hcl.print_starts (k := 3) (p := 3) (by omega) (by omega)
    obtain ⟨e2, et, rfl⟩ : ∃ e2 et, es = e2 :: et := by
      cases es with
      | nil => exact absurd rfl hne
      | cons a b => exact ⟨a, b, rfl⟩
    have hsp := values_space h2
    have hsp' : Spaced (items 3 (e :: e2 :: et)) := values_space (.cons h1 h2)
    refine ⟨jump_opening j fun rest _ => hsp'.ends rest, fun x => by cases j <;> simp [Jump.node], fun d rest ha => ?_⟩
    obtain ⟨hf, hcomma⟩ := ha
    have htok : read_token U (' ' :: ([','] ++ (items 3 (e2 :: et) ++ rest))) = _ := read_text text_comma (hsp.ends rest)
    obtain ⟨e', k1, k2⟩ := hcl.print_arg (m := m) (d := d) (rest := ' ' :: ([','] ++ (items 3 (e2 :: et) ++ rest)))
      (follow_op text_comma (k := if m then 1 else 2) rfl (by split <;> omega) (by simp) (by simp) (.inr (hsp.append _)))
    obtain ⟨l', i1, i2, i3⟩ := break_values (m := m) (d := d) h2 hne [e'] (hf.mono (q := 2) (by omega)) hcomma
    refine ⟨j.node (new_array (e' :: l')), ?_, ?_⟩
    · refine jump_strip j ?_
      show Node.Array (stripAll (e' :: l')) ((e' :: l').all Node.is_const_expr) = _
      rw [List.all_cons, i2, (k1.const (by omega)).1]
      show Node.Array (strip e' :: stripAll l') _ = _
      rw [k1.strip, i1]; rfl
    rw [List.append_assoc]
    refine primary_arg (opens_jump j (hsp'.ends rest)) hf (jump_primary j (hsp'.ends rest) ?_)
    refine Runs.up (g := fun p => parse_break_sub p) (fun _ => rfl) ?_
    unfold parse_break_sub
    rw [items_cons, List.append_assoc, List.cons_append, List.append_assoc]
    obtain ⟨t, a, ht, hst, -⟩ := hs.2 (' ' :: ([','] ++ (items 3 (e2 :: et) ++ rest))) (ends_sp _)
    refine Runs.step (peek_no_term_eq (fl := env U m d) ht) ?_
    obtain ⟨q1, q2, q3, -⟩ := opens_tok (.inl (start_mono (p := 2) (by omega) hst))
    have hw : t ≠ .Reserved .Unless ∧ t ≠ .Reserved .If := by
      constructor <;> (rintro rfl; exact hst)
    simp only [q2, q3, hw.1, hw.2, decide_false, Bool.or_self, Bool.false_eq_true, if_false]
    refine Runs.bind k2 ?_
    refine Runs.yes (cpn_yes (fl := env U m d) htok (by simp)) ?_
    exact Runs.bind i3 (Runs.pure _)

theorem arg_unmatch (h1 : Claim U Γ l Γ₁) (h2 : Claim U Γ₁ v Γ₂) :
    ArgClaim U m Γ (print 8 l ++ (word "!~" ++ print 8 v)) (.UnOp .Not (.BinOp .Match l v)) Γ₂ := by
  have hs1 := h1.print_starts (k := 8) (p := 8) (by omega) (by omega)
  have hs2 := h2.print_starts (k := 8) (p := 8) (by omega) (by omega)
  refine ⟨(hs1.opening (by omega)).append fun rest _ => ends_sp _, by simp, fun d rest ha => ?_⟩
  have htext : Text ['!', '~'] (.Punct .Unmatch) := .punct (t := "!~") (by decide) (by decide)
  have htok : read_token U (' ' :: (['!', '~'] ++ (print 8 v ++ rest))) = _ := read_text htext (hs2.ends _)
  obtain ⟨l', hl1, hl2⟩ := h1.print_good (k := 8) (p := 8) (by omega) (by omega) (by omega) m d
    (' ' :: (['!', '~'] ++ (print 8 v ++ rest))) (follow_op htext (k := 7) rfl (by omega) (by simp) (by simp) (.inr (hs2.space _)))
  obtain ⟨r', hr1, hr2⟩ := h2.print_good (k := 8) (p := 8) (by omega) (by omega) (by omega) m d rest
    (ha.1.mono (by omega))
  refine ⟨.UnOp .Not (.BinOp .Match l' r'), ?_, ?_⟩
  · show Node.UnOp .Not (.BinOp .Match (strip l') (strip r')) = _
    rw [hl1.strip, hr1.strip]
  · rw [List.append_assoc]
    have hbg := hs1.2 (word "!~" ++ (print 8 v ++ rest)) (ends_sp _)
    refine chain_le (j := 7) (k := 2) (by omega) (by omega) (by omega) (hbg.mono (by omega)).opens ha.1 ?_
    refine Runs.up (g := fun p => parse_arg_eq p) (fun _ => rfl) ?_
    unfold parse_arg_eq
    refine Runs.bind hl2 ?_
    refine Runs.no (cpn_no htok (by simp)) ?_
    refine Runs.no (cpn_no htok (by simp)) ?_
    refine Runs.no (cpn_no htok (by simp)) ?_
    refine Runs.no (cpn_no htok (by simp)) ?_
    exact Runs.yes (cpn_yes htok (by simp)) (Runs.bind hr2 (Runs.pure _))

theorem lines_claim (U : Unicode) {m : _root_.Bool} {ls : List Node} (h : Lines m Γ s ls Γ') : LinesClaim U m Γ s ls Γ' := by
  refine Lines.rec (motive_1 := fun m Γ s e Γ' _ => ArgClaim U m Γ s e Γ')
    (motive_2 := fun m Γ s e Γ' _ => ExprClaim U m Γ s e Γ')
    (motive_3 := fun m Γ s e Γ' _ => IfThenClaim U m Γ s e Γ')
    (motive_4 := fun m Γ s e Γ' _ => BodyClaim U m Γ s e Γ')
    (motive_5 := fun m Γ s l Γ' _ => LinesClaim U m Γ s l Γ')
    (motive_6 := fun m Γ s e Γ' _ => LineClaim U m Γ s e Γ')
    (motive_7 := fun m Γ s e Γ' _ => StatementClaim U m Γ s e Γ')
    ?_ ?_ ?_ ?_ ?_ ?_ ?_ ?_ ?_ ?_ ?_ ?_ ?_ ?_ ?_ ?_ ?_ ?_ ?_ ?_ ?_ ?_ ?_ ?_ ?_ ?_ ?_ ?_ ?_ ?_ h
  · exact fun h => arg_tree h.not_splat (tree_claim U h).1
  · exact fun _ h => arg_if h
  · exact fun _ ht _ h1 h2 => arg_unless h1 ht h2
  · exact fun _ ht _ _ h1 h2 h3 => arg_unless_else h1 ht h2 h3
  · exact fun _ _ h1 h2 => arg_while h1 h2
  · exact fun _ _ h1 h2 => arg_until h1 h2
  · exact fun j h => arg_jump j (tree_claim U h).1
  · exact fun j h hne => arg_jump_list j h hne
  · exact fun h1 h2 => arg_unmatch (tree_claim U h1).1 (tree_claim U h2).1
  · exact fun ha hl _ h => arg_assign ha.lvl (tree_claim U hl).1 h
  · exact fun ha hl hne h => arg_assign_list ha.lvl (tree_claim U hl).1 hne h
  · exact fun hn hp hd _ h => arg_def hn hp hd (def_some h)
  · exact fun hn hp hd => arg_def hn hp hd def_none
  · exact fun _ h => expr_arg h
  · exact fun ha hl hls hS hne h => expr_mul_assign ha.lvl (tree_claim U hl).1 hls hS hne h
  · exact fun _ _ h1 h2 => expr_and h1 h2
  · exact fun _ _ h1 h2 => expr_or h1 h2
  · exact fun _ ht _ h1 h2 => if_one h1 ht h2
  · exact fun _ ht _ _ h1 h2 h3 => if_els h1 ht h2 h3
  · exact fun _ ht _ _ h1 h2 h3 => if_elsif h1 ht h2 h3
  · exact body_none
  · exact fun _ h => body_some h
  · exact fun _ h => lines_one h
  · exact fun _ _ h1 h2 => lines_more h1 h2
  · exact fun _ h => line_statement h
  · exact fun j => line_jump j
  · exact fun j _ h => line_jump_modified j .if_ (.inl rfl) h
  · exact fun j _ h => line_jump_modified j .unless_ (.inr rfl) h
  · exact fun _ h => statement_expr h
  · exact fun o _ _ h1 h2 => statement_modified o h1 h2

theorem lines_run {ls : List Node} (h : Lines m Γ s ls Γ') : ∃ l', stripAll l' = ls ∧
    Runs (fun p => p.comp_stmt) (env U m d) ⟨s, Γ⟩ (.CompStmt l') ⟨[], Γ'⟩ := by
  have hc := lines_claim U h
  obtain ⟨l', h1, h2⟩ := hc.run d [] [] [] closing_nil
  rw [List.append_nil] at h2
  refine ⟨l', h1, ?_⟩
  obtain ⟨t, a, g1, g2, -⟩ := hc.opening.token (rest := []) trivial
  rw [List.append_nil] at g1
  refine Runs.up (g := fun p => parse_comp_stmt p) (fun _ => rfl) ?_
  unfold parse_comp_stmt
  exact Runs.step (peek_eq (skips_of (fl := env U m d) g1 g2)) h2

end
end Verif.Parser
