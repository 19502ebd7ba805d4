import Mathlib.Data.List.Basic
/-! # C130: the interactive session (`irrb`, `binding.irb`) -/
namespace Verif.Repl

/-! ## Model -/

abbrev Text := List Char

/-- `ParseErrKind` (ruruby-common/src/error.rs:41-45). -/
inductive PErr where
  | unexpectedEOF
  | syntax (msg : Text)
  deriving DecidableEq, Repr

/-- `RubyErrorKind` (ruruby-common/src/error.rs:26-38), the kinds that the session tells apart. -/
inductive Err where
  | parse (e : PErr)
  | systemExit (code : Int)
  | other (msg : Text)
  deriving DecidableEq, Repr

/-- The interpreter: `parse` is `parse_program_binding`, it knows the variables there are; `run` is `run_loop`, with whatever the
code does.  `σ` is what programs can see: variables, objects, output.  The stack, which `self.clear()` empties, is not in it. -/
structure World (σ C V : Type) where
  parse : Text → σ → Except PErr C
  run : C → σ → Except Err V × σ

/-- What the line editor gives (ruruby/src/vm/executor/repl.rs:41-53). -/
inductive Event where
  | line (l : Text)
  | interrupted
  | eof
  /-- any other error of the editor -/
  | failed
  deriving DecidableEq, Repr

/-- What is shown after an entry (ruruby/src/vm/executor/repl.rs:59-77). -/
inductive Shown (V : Type) where
  | value (v : V)
  | error (e : Err)
  | exited (code : Int)
  deriving DecidableEq, Repr

/-- How the session ended; `waiting`: it has not. -/
inductive Fin where
  | waiting
  | nil
  | code (n : Int)
  deriving DecidableEq, Repr

variable {σ C V : Type}

/-- `eval_binding` (ruruby/src/vm/executor/method.rs:341-353). -/
def evalBinding (W : World σ C V) (t : Text) (s : σ) : Except Err V × σ :=
  match W.parse t s with
  | .error e => (.error (.parse e), s)
  | .ok c => W.run c s

/-- The loop of `invoke_repl` (ruruby/src/vm/executor/repl.rs:38-82).  Prompts and the history of the editor are not modelled. -/
def repl (W : World σ C V) : List Event → Text → σ → List (Shown V) × Fin × σ
  | [], _, s => ([], .waiting, s)
  | .interrupted :: es, _, s => repl W es [] s
  | .eof :: _, _, s => ([], .nil, s)
  | .failed :: es, script, s => repl W es script s
  | .line l :: es, script, s =>
    let script := script ++ (l ++ ['\n'])
    match evalBinding W script s with
    | (.ok v, s) => let r := repl W es [] s; (.value v :: r.1, r.2)
    | (.error (.parse .unexpectedEOF), s) => repl W es script s
    | (.error (.systemExit n), s) => ([.exited n], .code n, s)
    | (.error e, s) => let r := repl W es [] s; (.error e :: r.1, r.2)

/-! ## Specification -/

/-- The text of some lines. -/
def join (ls : List Text) : Text := ls.flatMap (· ++ ['\n'])

/-- After each of these lines the text so far could go on. -/
def Open (W : World σ C V) (s : σ) (ls : List Text) : Prop :=
  ∀ k, 0 < k → k ≤ ls.length → W.parse (join (ls.take k)) s = .error .unexpectedEOF

/-- A session as a user sees it: lines are put together until their text is a whole one, which is run once, in the state that
the ones before left; what comes of it is shown. -/
inductive Session (W : World σ C V) : List Event → σ → List (Shown V) → Fin → σ → Prop
  /-- The last entry is not finished. -/
  | waits {ls s} : Open W s ls → Session W (ls.map .line) s [] .waiting s
  /-- An entry is given up. -/
  | givenUp {ls s es out r s'} : Open W s ls → Session W es s out r s' → Session W (ls.map .line ++ .interrupted :: es) s out r s'
  | ends {ls s es} : Open W s ls → Session W (ls.map .line ++ .eof :: es) s [] .nil s
  | wrong {ls l s msg es out r s'} : Open W s ls → W.parse (join (ls ++ [l])) s = .error (.syntax msg) → Session W es s out r s' →
      Session W (ls.map .line ++ .line l :: es) s (.error (.parse (.syntax msg)) :: out) r s'
  | value {ls l s c v s1 es out r s'} : Open W s ls → W.parse (join (ls ++ [l])) s = .ok c → W.run c s = (.ok v, s1) →
      Session W es s1 out r s' → Session W (ls.map .line ++ .line l :: es) s (.value v :: out) r s'
  | exits {ls l s c n s1 es} : Open W s ls → W.parse (join (ls ++ [l])) s = .ok c → W.run c s = (.error (.systemExit n), s1) →
      Session W (ls.map .line ++ .line l :: es) s [.exited n] (.code n) s1
  | raises {ls l s c e s1 es out r s'} : Open W s ls → W.parse (join (ls ++ [l])) s = .ok c → W.run c s = (.error e, s1) →
      (∀ n, e ≠ .systemExit n) → Session W es s1 out r s' → Session W (ls.map .line ++ .line l :: es) s (.error e :: out) r s'

/-! ## Helpers -/

theorem join_snoc (ls : List Text) (l : Text) : join ls ++ (l ++ ['\n']) = join (ls ++ [l]) := by simp [join]

/-- Lines that leave the text open are only put together. -/
theorem feed {W : World σ C V} (es : List Event) (s : σ) : ∀ (ls2 ls1 : List Text),
    (∀ k, ls1.length < k → k ≤ (ls1 ++ ls2).length → W.parse (join ((ls1 ++ ls2).take k)) s = .error .unexpectedEOF) →
    repl W (ls2.map .line ++ es) (join ls1) s = repl W es (join (ls1 ++ ls2)) s
  | [], ls1, _ => by simp
  | l :: ls2, ls1, h => by
    have e : ls1 ++ l :: ls2 = (ls1 ++ [l]) ++ ls2 := by simp
    have h1 := h (ls1.length + 1) (by omega) (by simp)
    rw [e, List.take_left' (by simp)] at h1
    have ih := feed es s ls2 (ls1 ++ [l]) (fun k h2 h3 => by
      rw [← e] at h3 ⊢
      exact h k (by simp at h2; omega) h3)
    simp only [List.map_cons, List.cons_append, repl, join_snoc, evalBinding, h1]
    rw [ih, e]

theorem feed' {W : World σ C V} {es : List Event} {s : σ} {ls : List Text} (h : Open W s ls) :
    repl W (ls.map .line ++ es) [] s = repl W es (join ls) s := by
  simpa [join] using feed es s ls [] (by simpa [Open] using h)

/-! ## C130 -/

/-- The session does what the user expects: each entry is run once, and shown.
Missing: entries that raise, while they run, the error of an unfinished text (`C130_again_fails`). -/
theorem C130_session_partial {W : World σ C V} (hrun : ∀ c s, (W.run c s).1 ≠ .error (.parse .unexpectedEOF)) {es : List Event}
    {s : σ} {out : List (Shown V)} {r : Fin} {s' : σ} (h : Session W es s out r s') : repl W es [] s = (out, r, s') := by
  induction h with
  | @waits ls s h =>
    have := feed' (es := []) h
    rw [List.append_nil] at this
    rw [this, repl]
  | givenUp h _ ih => rw [feed' h, repl, ih]
  | ends h => rw [feed' h, repl]
  | wrong h p _ ih => simp [feed' h, repl, join_snoc, evalBinding, p, ih]
  | value h p q _ ih => simp [feed' h, repl, join_snoc, evalBinding, p, q, ih]
  | exits h p q => simp [feed' h, repl, join_snoc, evalBinding, p, q]
  | @raises ls l s c e s1 es out r s' h p q ne _ ih =>
    have n1 := hrun c s
    rw [q] at n1
    rw [feed' h, repl, join_snoc, evalBinding, p]
    simp only [q]
    split
    · rename_i k; cases k
    · rename_i k
      cases k
      exact absurd rfl n1
    · rename_i k
      cases k
      exact absurd rfl (ne _)
    · rename_i k
      cases k
      simp [ih]

theorem open_snoc {W : World σ C V} {s : σ} {ls : List Text} (h : Open W s ls) {l : Text}
    (e : W.parse (join (ls ++ [l])) s = .error .unexpectedEOF) : Open W s (ls ++ [l]) := by
  intro k h1 h2
  simp only [List.length_append, List.length_cons, List.length_nil] at h2
  rcases Nat.lt_or_ge ls.length k with q | q
  · rw [List.take_of_length_le (by simp; omega)]
    exact e
  · rw [List.take_append_of_le_length q]
    exact h k h1 q

theorem session_from {W : World σ C V} : ∀ (es : List Event) (ls : List Text) (s : σ), .failed ∉ es → Open W s ls →
    ∃ out r s', Session W (ls.map .line ++ es) s out r s'
  | [], ls, s, _, h => ⟨[], .waiting, s, by simpa using .waits h⟩
  | .failed :: es, ls, s, n, _ => absurd (List.mem_cons_self ..) n
  | .eof :: es, ls, s, _, h => ⟨_, _, _, .ends h⟩
  | .interrupted :: es, ls, s, n, h => by
    obtain ⟨out, r, s', q⟩ := session_from (W := W) es [] s (fun k => n (by simp [k])) (fun k h1 h2 => by simp at h2; omega)
    exact ⟨_, _, _, .givenUp h q⟩
  | .line l :: es, ls, s, n, h => by
    have n' : Event.failed ∉ es := fun k => n (by simp [k])
    have nil : ∀ s, Open W s [] := fun s k h1 h2 => by simp at h2; omega
    rcases p : W.parse (join (ls ++ [l])) s with e | c
    · cases e with
      | unexpectedEOF =>
        obtain ⟨out, r, s', q⟩ := session_from es (ls ++ [l]) s n' (open_snoc h p)
        exact ⟨out, r, s', by simpa using q⟩
      | «syntax» msg =>
        obtain ⟨out, r, s', q⟩ := session_from (W := W) es [] s n' (nil s)
        exact ⟨_, _, _, .wrong h p q⟩
    · rcases u : W.run c s with ⟨e | v, s1⟩
      · by_cases ne : ∃ n, e = .systemExit n
        · obtain ⟨n, rfl⟩ := ne
          exact ⟨_, _, _, .exits h p u⟩
        · obtain ⟨out, r, s', q⟩ := session_from (W := W) es [] s1 n' (nil s1)
          exact ⟨_, _, _, .raises h p u (fun n k => ne ⟨n, k⟩) q⟩
      · obtain ⟨out, r, s', q⟩ := session_from (W := W) es [] s1 n' (nil s1)
        exact ⟨_, _, _, .value h p u q⟩

/-- Every input is such a session, as long as the editor does not fail. -/
theorem C130_every_input (W : World σ C V) (es : List Event) (h : .failed ∉ es) (s : σ) : ∃ out r s', Session W es s out r s' := by
  simpa using session_from (W := W) es [] s h (fun k h1 h2 => by simp at h2; omega)

/-- A failure of the editor is passed over: the entry can go on. -/
theorem C130_failed (W : World σ C V) (es : List Event) (script : Text) (s : σ) :
    repl W es script s = repl W (es.filter fun e => e ≠ .failed) script s := by
  induction es generalizing script s with
  | nil => rfl
  | cons e es ih =>
    cases e with
    | line l =>
      simp only [ne_eq, reduceCtorEq, not_false_eq_true, decide_true, List.filter_cons_of_pos, repl]
      split <;> simp [ih]
    | interrupted => simpa [repl] using ih [] s
    | eof => simp [repl]
    | failed => simpa [repl] using ih script s

/-- **C130** (violated).  If an entry is whole, but runs into an unfinished text, with `eval` or `require`, nothing is shown,
and with the next line it is run again, in the state it left. -/
theorem C130_again_fails {W : World σ C V} {l : Text} {s s1 : σ} {c : C} (hp : W.parse (l ++ ['\n']) s = .ok c)
    (hr : W.run c s = (.error (.parse .unexpectedEOF), s1)) (l2 : Text) {c2 : C} {v : V} {s2 : σ}
    (hp2 : W.parse (l ++ ['\n'] ++ (l2 ++ ['\n'])) s1 = .ok c2) (hr2 : W.run c2 s1 = (.ok v, s2)) :
    repl W [.line l, .line l2] [] s = ([.value v], .waiting, s2) ∧
    Session W [.line l] s [.error (.parse .unexpectedEOF)] .waiting s1 ∧ repl W [.line l] [] s = ([], .waiting, s1) := by
  refine ⟨?_, ?_, ?_⟩
  · simp only [repl, List.nil_append, evalBinding, hp, hr, hp2, hr2]
  · exact .raises (ls := []) (es := []) (fun k h1 h2 => by simp at h2; omega) (by simpa [join] using hp) hr (by simp)
      (.waits (ls := []) (fun k h1 h2 => by simp at h2; omega))
  · simp only [repl, List.nil_append, evalBinding, hp, hr]

/-! ## Instances -/

/-- Texts are whole if they have as many `)` as `(`; running one counts its `x`, and gives the count.  `q` leaves, `e` raises,
`!` is `eval("(")`. -/
def toy : World Nat Text Nat where
  parse t _ := if t.count ')' < t.count '(' then .error .unexpectedEOF else if t.count '(' < t.count ')' then .error (.syntax []) else .ok t
  run t s :=
    let s := s + t.count 'x'
    if 'q' ∈ t then (.error (.systemExit 3), s) else if 'e' ∈ t then (.error (.other []), s)
    else if t.count '!' = 1 ∧ t.count '.' = 0 then (.error (.parse .unexpectedEOF), s) else (.ok s, s)

example : repl toy [.line "x(".toList, .line "x".toList, .line ")".toList, .line "e".toList, .line "(x".toList, .interrupted,
      .line ")".toList, .failed, .line "xq".toList, .line "x".toList] [] 0 =
    ([.value 2, .error (.other []), .error (.parse (.syntax [])), .exited 3], .code 3, 3) := by decide

/-- `C130_again_fails`: the `x` before the `eval("(")` is counted twice. -/
example : repl toy [.line "x!".toList, .line ".".toList] [] 0 = ([.value 2], .waiting, 2) := by decide

/-- A world as `C130_session_partial` asks for: the same without `eval`. -/
example : ∀ c s, (({ toy with run := fun t s => (.ok (s + t.count 'x'), s + t.count 'x') } : World Nat Text Nat).run c s).1 ≠
    .error (.parse .unexpectedEOF) := by simp

end Verif.Repl
