import Verif.Parser.Props
/-!
# C49: names of methods and their parameters
-/
namespace Verif.Parser
open Verif.Lexer

variable {U : Unicode}

/-- A name that a method can have: an identifier other than `self`, a constant, or a reserved word. -/
def DefName (x : Chars) : Prop :=
  (Text x (.Ident x) ∧ x ≠ "self".toList) ∨ Text x (.Const x) ∨ ∃ r : Reserved, x = r.text.toList

theorem name_token {x r : Chars} (h : DefName x) (hr : Ends r) :
    (x ≠ "self".toList ∧ read_token U (' ' :: (x ++ r)) = .ok (.Ident x, r)) ∨ read_token U (' ' :: (x ++ r)) = .ok (.Const x, r) ∨
      ∃ w : Reserved, x = w.text.toList ∧ read_token U (' ' :: (x ++ r)) = .ok (.Reserved w, r) := by
  rcases h with ⟨h, h'⟩ | h | ⟨w, rfl⟩
  · exact .inl ⟨h', read_text h hr⟩
  · exact .inr (.inl (read_text h hr))
  · exact .inr (.inr ⟨w, rfl, read_text (.reserved w) hr⟩)

/-- From the token to the name. -/
theorem name_of_token {fl : Env} {s x r : Chars} {Γ : List Chars} {t : Tok} {r' : Chars} (hU : fl.U = U)
    (h : (x ≠ "self".toList ∧ read_token U s = .ok (.Ident x, r)) ∨ read_token U s = .ok (.Const x, r) ∨
      ∃ w : Reserved, x = w.text.toList ∧ read_token U s = .ok (.Reserved w, r))
    (hn : read_token U r = .ok (t, r')) (h1 : t ≠ .Punct .Dot) (h2 : t ≠ .Punct .Scope) :
    parse_def_name fl ⟨s, Γ⟩ = read_method_ext x fl ⟨r, Γ⟩ := by
  subst hU
  unfold parse_def_name
  rcases h with ⟨hs, h⟩ | h | ⟨w, rfl, h⟩
  · rw [bind_ok (get_eq (skips_of h rfl) (by simp))]
    dsimp only
    rw [if_neg (show ¬ x = ['s', 'e', 'l', 'f'] from hs), bind_ok (cpn_no hn h1)]
    simp only [Bool.false_eq_true, if_false]
    rw [bind_ok (cpn_no hn h2)]
    simp
  · rw [bind_ok (get_eq (skips_of h rfl) (by simp))]
    dsimp only
    rw [bind_ok (cpn_no hn h1)]
    simp only [Bool.false_eq_true, if_false]
    rw [bind_ok (cpn_no hn h2)]
    simp
  · rw [bind_ok (get_eq (skips_of h rfl) (by simp))]

/-- **C49** (names of methods).  After `def` comes an identifier (also with `?` or `!`), a constant or a reserved word; before the
parenthesis of the parameters it is the name of the method. -/
theorem C49_method_names {fl : Env} {x rest : Chars} {Γ : List Chars} (h : DefName x) (hr : Ends rest) :
    parse_def_name fl ⟨' ' :: (x ++ '(' :: rest), Γ⟩ = .ok (x, ⟨'(' :: rest, Γ⟩) := by
  rw [name_of_token (U := fl.U) rfl (name_token h (ends_lp rest)) (C73_token fl.U text_lparen hr) (by simp) (by simp)]
  unfold read_method_ext
  simp

/-- `x=` before a parenthesis. -/
theorem setter_token {x rest : Chars} (h : DefName x) (hm : x.getLast? ≠ some '?' ∧ x.getLast? ≠ some '!') :
    (x ≠ "self".toList ∧ read_token U (' ' :: (x ++ '=' :: '(' :: rest)) = .ok (.Ident x, '=' :: '(' :: rest)) ∨
      read_token U (' ' :: (x ++ '=' :: '(' :: rest)) = .ok (.Const x, '=' :: '(' :: rest) ∨
      ∃ w : Reserved, x = w.text.toList ∧ read_token U (' ' :: (x ++ '=' :: '(' :: rest)) = .ok (.Reserved w, '=' :: '(' :: rest) := by
  have key : Name x → read_token U (' ' :: (x ++ '=' :: '(' :: rest)) = .ok (classify (x.head?.elim false is_upper) x, '=' :: '(' :: rest) := by
    intro hn
    rw [sp]
    cases hn with
    | plain hc ht =>
      rw [List.cons_append, read_token_ident U hc, read_identifier_plain ht (by rintro c r ⟨⟩; decide) rfl]; rfl
    | mark hc ht hm' =>
      exfalso
      rcases hm' with rfl | rfl
      · exact hm.1 (List.getLast?_concat ..)
      · exact hm.2 (List.getLast?_concat ..)
  rcases h with ⟨h, h'⟩ | h | ⟨w, rfl⟩
  · cases h with
    | ident hn hres hup =>
      refine .inl ⟨h', ?_⟩
      rw [key hn, classify_name hres, if_neg]
      cases x with
      | nil => simp
      | cons c t => simpa using hup c t rfl
  · cases h with
    | const hn hres hup =>
      refine .inr (.inl ?_)
      rw [key hn, classify_name hres, if_pos]
      cases x with
      | nil => cases hn
      | cons c t => simpa using hup c t rfl
  · refine .inr (.inr ⟨w, rfl, ?_⟩)
    rw [key (reserved_name w)]
    unfold classify; rw [check_reserved_text]

/-- **C49** (names of methods).  A `=` before the parenthesis belongs to the name: `def x=(v)`. -/
theorem C49_setter_names {fl : Env} {x rest : Chars} {Γ : List Chars} (h : DefName x)
    (hm : x.getLast? ≠ some '?' ∧ x.getLast? ≠ some '!') :
    parse_def_name fl ⟨' ' :: (x ++ '=' :: '(' :: rest), Γ⟩ = .ok (x ++ ['='], ⟨'(' :: rest, Γ⟩) := by
  have h1 : read_token fl.U ('=' :: '(' :: rest) = .ok (.Punct .Assign, '(' :: rest) :=
    C73_token fl.U (.punct (t := "=") (p := .Assign) (by decide) (by decide)) (ends_lp rest)
  rw [name_of_token (U := fl.U) rfl (setter_token h hm) h1 (by simp) (by simp)]
  unfold read_method_ext
  simp [hm.1, hm.2]

/-- Parsing that declares no variable, and what holds of its result. -/
def Keeps {α : Type} (x : P α) : Prop := ∀ {fl st a st'}, x fl st = .ok (a, st') → st'.lvars = st.lvars

theorem bind_inv {α β : Type} {x : P α} {f : α → P β} {fl : Env} {st st' : St} {b : β} (h : (x >>= f) fl st = .ok (b, st')) :
    ∃ a st₁, x fl st = .ok (a, st₁) ∧ f a fl st₁ = .ok (b, st') := by
  change (match x fl st with | Except.error e => Except.error e | .ok (a, st) => f a fl st) = _ at h
  split at h
  · cases h
  · rename_i a st₁ h1
    exact ⟨a, st₁, h1, h⟩

theorem keeps_get : Keeps get := by
  intro fl st a st' h
  unfold get at h
  split at h <;> cases h
  rfl

theorem keeps_peek {fl : Env} {st st' : St} {a : Tok} (h : peek fl st = .ok (a, st')) : st' = st := by
  unfold peek at h
  split at h <;> cases h
  rfl

theorem keeps_peek_no_term {fl : Env} {st st' : St} {a : Tok} (h : peek_no_term fl st = .ok (a, st')) : st' = st := by
  unfold peek_no_term at h
  split at h <;> cases h
  rfl

theorem keeps_punct (p : Punct) : Keeps (consume_punct p) := by
  intro fl st a st' h
  obtain ⟨t, st1, h1, h⟩ := bind_inv h
  cases keeps_peek h1
  split at h
  · obtain ⟨_, _, h2, h⟩ := bind_inv h
    cases h
    exact keeps_get h2
  · cases h
    rfl

theorem keeps_punct_no_term (p : Punct) : Keeps (consume_punct_no_term p) := by
  intro fl st a st' h
  obtain ⟨t, st1, h1, h⟩ := bind_inv h
  cases keeps_peek_no_term h1
  split at h
  · obtain ⟨_, _, h2, h⟩ := bind_inv h
    cases h
    exact keeps_get h2
  · cases h
    rfl

theorem keeps_ident : Keeps expect_ident := by
  intro fl st a st' h
  obtain ⟨t, st1, h1, h⟩ := bind_inv h
  split at h
  · cases h
    exact keeps_get h1
  · cases h

theorem formal_loop_nodup : ∀ (n : Nat) (args : List Chars) {fl : Env} {st st' : St} {ps : List Chars},
    formal_loop n args fl st = .ok (ps, st') → args.Nodup → (∀ x ∈ args, x ∈ st.lvars) → ps.Nodup
  | 0, _, _, _, _, _, h, _, _ => by cases h
  | n + 1, args, fl, st, st', ps, h, hd, hs => by
    unfold formal_loop at h
    obtain ⟨b1, st1, h1, h⟩ := bind_inv h
    split at h; · cases h
    obtain ⟨b2, st2, h2, h⟩ := bind_inv h
    split at h; · cases h
    obtain ⟨b3, st3, h3, h⟩ := bind_inv h
    split at h; · cases h
    obtain ⟨b4, st4, h4, h⟩ := bind_inv h
    split at h; · cases h
    obtain ⟨id, st5, h5, h⟩ := bind_inv h
    obtain ⟨b6, st6, h6, h⟩ := bind_inv h
    split at h; · cases h
    obtain ⟨b7, st7, h7, h⟩ := bind_inv h
    split at h; · cases h
    obtain ⟨u, st8, h8, h⟩ := bind_inv h
    obtain ⟨b9, st9, h9, hf⟩ := bind_inv h
    have hl : st7.lvars = st.lvars := by
      rw [keeps_punct_no_term _ h7, keeps_punct _ h6, keeps_ident h5, keeps_punct _ h4, keeps_punct _ h3, keeps_punct _ h2,
        keeps_punct _ h1]
    unfold new_param at h8
    split at h8
    · cases h8
    · rename_i hid
      cases h8
      have hid : id ∉ st7.lvars := by simpa using hid
      have hd' : (args ++ [id]).Nodup := by
        rw [List.nodup_append]
        refine ⟨hd, by simp, ?_⟩
        intro x hx y hy
        simp only [List.mem_singleton] at hy
        subst hy
        rintro rfl
        exact hid (by rw [hl]; exact hs _ hx)
      split at hf
      · refine formal_loop_nodup n _ hf hd' ?_
        intro x hx
        rw [keeps_punct_no_term _ h9]
        rcases List.mem_append.1 hx with hx | hx
        · exact List.mem_cons_of_mem _ (by rw [hl]; exact hs _ hx)
        · simp only [List.mem_singleton] at hx
          subst hx
          exact List.mem_cons_self ..
      · cases hf
        exact hd'

/-- **C49** (parameters).  In a definition that is accepted, whatever its text, the parameters are different from each other. -/
theorem C49_parameters_differ {fl : Env} {st st' : St} {ps : List Chars} (h : parse_def_params fl st = .ok (ps, st')) : ps.Nodup := by
  have key : ∀ {t : Option Punct} {st st' : St} {ps : List Chars}, parse_formal_params t fl st = .ok (ps, st') → ps.Nodup := by
    intro t st st' ps h
    unfold parse_formal_params at h
    split at h
    · obtain ⟨b, st1, -, h⟩ := bind_inv h
      split at h
      · cases h
        exact List.nodup_nil
      · obtain ⟨as, st2, h2, h⟩ := bind_inv h
        obtain ⟨_, _, -, h⟩ := bind_inv h
        cases h
        exact formal_loop_nodup _ _ h2 List.nodup_nil (by simp)
    · exact formal_loop_nodup _ _ h List.nodup_nil (by simp)
  unfold parse_def_params at h
  obtain ⟨b, st1, -, h⟩ := bind_inv h
  split at h
  · cases h
    exact List.nodup_nil
  · obtain ⟨b, st2, -, h⟩ := bind_inv h
    split at h <;>
    · obtain ⟨as, st3, h3, h⟩ := bind_inv h
      obtain ⟨_, _, -, h⟩ := bind_inv h
      cases h
      exact key h3

open Lean Elab Tactic Meta in
/-- closes an equation by evaluation in the kernel -/
local elab "kernel_rfl" : tactic => do
  let g ← getMainGoal
  let some (_, l, _) := (← g.getType).eq? | throwError "not an equation"
  g.assign (← mkEqRefl l)

/-- Two parameters. -/
example (U : Unicode) : parse_def_params (env U false false) ⟨"(a, b); end".toList, []⟩ =
    .ok (["a".toList, "b".toList], ⟨" end".toList, ["b".toList, "a".toList]⟩) := by
  simp only [String.reduceToList]
  kernel_rfl

/-- `def f(a, a)` is refused. -/
example (U : Unicode) : Rejects U "def f(a, a); end".toList .syntax := by
  simp only [String.reduceToList]
  exact Rejects.of (n := 160) (by decide) (by kernel_rfl)

example : DefName "size".toList ∧ DefName "empty?".toList ∧ DefName "class".toList ∧ DefName "Integer".toList := by
  refine ⟨.inl ⟨.ident (.plain (.inl (by decide)) (by decide)) (by rintro ⟨⟩ <;> decide) (by rintro c t ⟨⟩; decide), by decide⟩,
    .inl ⟨.ident (.mark (c := 'e') (t := "mpty".toList) (m := '?') (.inl (by decide)) (by decide) (.inl rfl)) (by rintro ⟨⟩ <;> decide)
      (by rintro c t ⟨⟩; decide), by decide⟩,
    .inr (.inr ⟨.Class, by decide⟩),
    .inr (.inl (.const (.plain (.inl (by decide)) (by decide)) (by rintro ⟨⟩ <;> decide) (by rintro c t ⟨⟩; decide)))⟩

end Verif.Parser
