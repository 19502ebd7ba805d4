/-! # C108: puts, p, print and loop

The functions of `builtin/kernel.rs` that write, and `loop`.  `to_s`, `inspect` and blocks are arbitrary: they change the state and raise.
What is written becomes part of the state. -/
namespace Verif.Kernel

variable {σ ε α : Type}

/-! ## Model -/

abbrev Text := List Char

/-- A value as `puts` sees it: an array, or something else.  Arrays that contain themselves are left out: the recursion does not end. -/
inductive Tree (α : Type)
  | leaf (x : α)
  | arr (l : List (Tree α))

/-- What the functions call. -/
structure World (σ ε α : Type) where
  /-- `val_to_s` -/
  to_s : α → σ → Except ε Text × σ
  /-- `val_inspect` -/
  inspect : α → σ → Except ε Text × σ
  /-- `print!` -/
  write : Text → σ → σ

/-- The inner function `flatten` of `puts` (builtin/kernel.rs:40-50), for one value and for the elements of an array in turn. -/
def flatten (W : World σ ε α) : Tree α → σ → Except ε Unit × σ
  | .leaf x, s =>
    match W.to_s x s with
    | (.error e, s) => (.error e, s)
    | (.ok t, s) => (.ok (), W.write (t ++ ['\n']) s)
  | .arr l, s => flattenAll l s
where
  flattenAll : List (Tree α) → σ → Except ε Unit × σ
  | [], s => (.ok (), s)
  | x :: xs, s =>
    match flatten W x s with
    | (.error e, s) => (.error e, s)
    | (.ok (), s) => flattenAll xs s

/-- The loop over the arguments of `puts` (builtin/kernel.rs:54-56). -/
def putsLoop (W : World σ ε α) : List (Tree α) → σ → Except ε Unit × σ
  | [], s => (.ok (), s)
  | x :: xs, s =>
    match flatten W x s with
    | (.error e, s) => (.error e, s)
    | (.ok (), s) => putsLoop W xs s

/-- `puts` (builtin/kernel.rs:39-58); the value is nil. -/
def puts (W : World σ ε α) (args : List (Tree α)) (s : σ) : Except ε Unit × σ :=
  putsLoop W args (if args.length = 0 then W.write ['\n'] s else s)

/-- What `p` returns. -/
inductive Returned (α : Type)
  | nil
  | one (x : α)
  | array (l : List α)
  deriving DecidableEq, Repr

/-- The loop of `p` (builtin/kernel.rs:70-72). -/
def pLoop (W : World σ ε α) : List α → σ → Except ε Unit × σ
  | [], s => (.ok (), s)
  | x :: xs, s =>
    match W.inspect x s with
    | (.error e, s) => (.error e, s)
    | (.ok t, s) => pLoop W xs (W.write (t ++ ['\n']) s)

/-- `p` (builtin/kernel.rs:69-79). -/
def p (W : World σ ε α) (args : List α) (s : σ) : Except ε (Returned α) × σ :=
  match pLoop W args s with
  | (.error e, s) => (.error e, s)
  | (.ok (), s) =>
    (.ok (match args with
      | [] => .nil
      | [x] => .one x
      | l => .array l), s)

/-- `print` (builtin/kernel.rs:82-94).  `bytes` gives the text of a string; `io::stdout().write(bytes)` writes the first `accept` of it. -/
def print (W : World σ ε α) (bytes : α → Option Text) (accept : Text → σ → Nat) : List α → σ → Except ε Unit × σ
  | [], s => (.ok (), s)
  | x :: xs, s =>
    match bytes x with
    | some t => print W bytes accept xs (W.write (t.take (accept t s)) s)
    | none =>
      match W.to_s x s with
      | (.error e, s) => (.error e, s)
      | (.ok t, s) => print W bytes accept xs (W.write t s)

/-- How `<<` ends. -/
inductive Shift (ε : Type)
  /-- the receiver is returned -/
  | self
  | raised (e : ε)
  | panic
  deriving DecidableEq

/-- The argument of `<<` as `Value::as_string` sees it (value/value.rs:647-655, value/string.rs:162-168): text, a string of bytes,
something else. -/
inductive Kind
  | text (t : Text)
  | bytes
  | other

/-- `IO#<<` (builtin/io.rs:20-32), which there is for standard output only. -/
def shift (W : World σ ε α) (kind : α → Kind) (x : α) (s : σ) : Shift ε × σ :=
  match kind x with
  | .text t => (.self, W.write t s)
  | .bytes => (.panic, s)
  | .other =>
    match W.to_s x s with
    | (.error e, s) => (.raised e, s)
    | (.ok t, s) => (.self, W.write t s)

/-- `$stdout << x << y << …`. -/
def shifts (W : World σ ε α) (kind : α → Kind) : List α → σ → Shift ε × σ
  | [], s => (.self, s)
  | x :: xs, s =>
    match shift W kind x s with
    | (.self, s) => shifts W kind xs s
    | r => r

/-- How a round of a block ends (`eval_block0`).  An exception object has the name of its class and of the classes above it. -/
inductive Round (α ε : Type)
  | done
  /-- `BlockReturn`: `break` with this value. -/
  | brk (v : α)
  /-- `RuntimeErrKind::StopIteration`, raised by the interpreter: an enumerator that ended with this result. -/
  | stop (result : α)
  /-- `RubyErrorKind::Exception` -/
  | exc (cls : Text) (above : List Text) (e : ε)
  /-- any other error -/
  | err (e : ε)
  deriving DecidableEq, Repr

/-- The name the class of an exception is compared with (builtin/kernel.rs:262). -/
def stopIteration : Text := "StopIteration".toList

/-- `loop` (builtin/kernel.rs:250-268), at most `n` rounds; `none`: it is still running. -/
def loop (nil : α) (block : σ → Round α ε × σ) : Nat → σ → Option (Except ε α × σ)
  | 0, _ => none
  | n + 1, s =>
    match block s with
    | (.done, s) => loop nil block n s
    | (.brk v, s) => some (.ok v, s)
    | (.stop _, s) => some (.ok nil, s)
    | (.exc c _ e, s) => if c = stopIteration then some (.ok nil, s) else some (.error e, s)
    | (.err e, s) => some (.error e, s)

/-! ## Specification -/

/-- The values that are no arrays, from left to right. -/
def leaves : Tree α → List α
  | .leaf x => [x]
  | .arr l => leavesAll l
where
  leavesAll : List (Tree α) → List α
  | [] => []
  | x :: xs => leaves x ++ leavesAll xs

/-- One line for each value in order: its text is asked for, then written with a newline; the first that raises ends it. -/
def eachLine (text : α → σ → Except ε Text × σ) (write : Text → σ → σ) : List α → σ → Except ε Unit × σ
  | [], s => (.ok (), s)
  | x :: xs, s =>
    match text x s with
    | (.error e, s) => (.error e, s)
    | (.ok t, s) => eachLine text write xs (write (t ++ ['\n']) s)

/-- `n` rounds of the block that end without anything special lead from `s` to `s'`. -/
inductive Rounds (block : σ → Round α ε × σ) : Nat → σ → σ → Prop
  | zero {s} : Rounds block 0 s s
  | succ {n s s' s''} : block s = (.done, s') → Rounds block n s' s'' → Rounds block (n + 1) s s''

/-- How `loop` ends after a round that is not done. -/
def ending (nil : α) : Round α ε → Option (Except ε α)
  | .done => none
  | .brk v => some (.ok v)
  | .stop _ => some (.ok nil)
  | .exc c above e => if stopIteration ∈ c :: above then some (.ok nil) else some (.error e)
  | .err e => some (.error e)

/-! ## Helpers -/

theorem eachLine_append (text : α → σ → Except ε Text × σ) (write : Text → σ → σ) (l m : List α) (s : σ) :
    eachLine text write (l ++ m) s = match eachLine text write l s with
      | (.error e, s) => (.error e, s)
      | (.ok (), s) => eachLine text write m s := by
  induction l generalizing s with
  | nil => rfl
  | cons x l ih =>
    simp only [List.cons_append, eachLine]
    rcases text x s with ⟨_ | t, s'⟩
    · rfl
    · exact ih _

mutual
theorem flatten_lines (W : World σ ε α) : ∀ (t : Tree α) (s : σ), flatten W t s = eachLine W.to_s W.write (leaves t) s
  | .leaf x, s => by
    simp only [flatten, leaves, eachLine]
  | .arr l, s => by
    rw [flatten, leaves]
    exact flattenAll_lines W l s
theorem flattenAll_lines (W : World σ ε α) : ∀ (l : List (Tree α)) (s : σ),
    flatten.flattenAll W l s = eachLine W.to_s W.write (leaves.leavesAll l) s
  | [], s => by simp [flatten.flattenAll, leaves.leavesAll, eachLine]
  | x :: xs, s => by
    rw [flatten.flattenAll, leaves.leavesAll, eachLine_append, flatten_lines W x s]
    rcases eachLine W.to_s W.write (leaves x) s with ⟨_ | _, s'⟩
    · rfl
    · exact flattenAll_lines W xs s'
end

theorem loop_end {nil : α} {block : σ → Round α ε × σ} {n : Nat} {s : σ} {r : Except ε α × σ} (h : loop nil block n s = some r) :
    ∃ k s' o, Rounds block k s s' ∧ block s' = (o, r.2) ∧ o ≠ .done ∧ loop nil block 1 s' = some r := by
  induction n generalizing s with
  | zero => cases h
  | succ n ih =>
    have h' := h
    rw [loop] at h
    rcases hb : block s with ⟨o, s'⟩
    have one : o ≠ .done → loop nil block 1 s = some r := by
      intro ho
      rw [← h', loop, loop, hb]
      cases o <;> first | rfl | exact absurd rfl ho
    rw [hb] at h
    cases o with
    | done =>
      obtain ⟨k, s'', o, h2, h3⟩ := ih h
      exact ⟨k + 1, s'', o, .succ hb h2, h3⟩
    | brk v => cases h; exact ⟨0, s, .brk v, .zero, hb, by simp, one (by simp)⟩
    | stop v => cases h; exact ⟨0, s, .stop v, .zero, hb, by simp, one (by simp)⟩
    | exc c l e =>
      refine ⟨0, s, .exc c l e, .zero, ?_, by simp, one (by simp)⟩
      simp only at h
      split at h <;> cases h <;> exact hb
    | err e => cases h; exact ⟨0, s, .err e, .zero, hb, by simp, one (by simp)⟩

theorem loop_one {nil : α} {block : σ → Round α ε × σ} {s : σ} (plain : ∀ c l e, (block s).1 = .exc c l e → stopIteration ∉ l) :
    loop nil block 1 s = (ending nil (block s).1).map fun r => (r, (block s).2) := by
  rw [loop]
  rcases hb : block s with ⟨o, s'⟩
  cases o with
  | done => rfl
  | brk v => rfl
  | stop v => rfl
  | exc c l e =>
    have := plain c l e (by rw [hb])
    by_cases hc : c = stopIteration
    · simp [ending, hc]
    · have : stopIteration ∉ c :: l := by
        rw [List.mem_cons]; rintro (h | h)
        · exact hc h.symm
        · exact this h
      simp only [ending, hc, this, if_false, Option.map_some]
  | err e => rfl

theorem loop_rounds {nil : α} {block : σ → Round α ε × σ} {k : Nat} {s s' : σ} (h : Rounds block k s s') (n : Nat) :
    loop nil block (k + n) s = loop nil block n s' := by
  induction h with
  | zero => rw [Nat.zero_add]
  | succ hb _ ih => rw [Nat.add_right_comm, loop, hb]; exact ih

/-! ## C108 -/

/-- `puts` writes one line for every value that is no array, in order, however the arrays are nested; an empty line without arguments. -/
theorem C108_puts (W : World σ ε α) (args : List (Tree α)) (s : σ) :
    puts W args s = if args = [] then (.ok (), W.write "\n".toList s) else eachLine W.to_s W.write (args.flatMap leaves) s := by
  have lp : ∀ (l : List (Tree α)) (s : σ), putsLoop W l s = eachLine W.to_s W.write (l.flatMap leaves) s := by
    intro l
    induction l with
    | nil => intro s; rfl
    | cons x xs ih =>
      intro s
      rw [putsLoop, List.flatMap_cons, eachLine_append, flatten_lines]
      rcases eachLine W.to_s W.write (leaves x) s with ⟨_ | _, s'⟩
      · rfl
      · exact ih s'
  unfold puts
  rw [lp]
  cases args with
  | nil => rfl
  | cons x xs => simp

/-- If `to_s` only gives a text, `puts` writes these texts with a newline after each. -/
theorem C108_puts_text (out : α → Text) (args : List (Tree α)) (h : args ≠ []) (before : Text) :
    puts (ε := ε) ⟨fun x s => (.ok (out x), s), fun x s => (.ok (out x), s), fun t s => s ++ t⟩ args before =
      (.ok (), before ++ (args.flatMap leaves).flatMap fun x => out x ++ "\n".toList) := by
  rw [C108_puts, if_neg h]
  generalize args.flatMap leaves = l
  induction l generalizing before with
  | nil => simp [eachLine]
  | cons x xs ih =>
    simp only [eachLine]
    rw [ih]
    simp

/-- `p` writes one line for every argument in order, and returns nil, the argument or the array of the arguments. -/
theorem C108_p (W : World σ ε α) (args : List α) (s : σ) :
    p W args s = match eachLine W.inspect W.write args s with
      | (.error e, s) => (.error e, s)
      | (.ok (), s) => (.ok (if args.length = 0 then .nil else if h : args.length = 1 then .one args[0] else .array args), s) := by
  have lp : ∀ (l : List α) (s : σ), pLoop W l s = eachLine W.inspect W.write l s := by
    intro l
    induction l with
    | nil => intro s; rfl
    | cons x xs ih =>
      intro s
      rw [pLoop, eachLine]
      rcases W.inspect x s with ⟨_ | t, s'⟩
      · rfl
      · exact ih _
  unfold p
  rw [lp]
  rcases eachLine W.inspect W.write args s with ⟨_ | _, s'⟩
  · rfl
  · match args with
    | [] => rfl
    | [x] => rfl
    | x :: y :: l => simp

/-- `print` writes the texts one after the other and nothing else.

`_partial`: if standard output takes all bytes at once (`C108_print_fails`). -/
theorem C108_print_partial (bytes : α → Option Text) (out : α → Text) (accept : Text → Text → Nat) (hacc : ∀ t s, t.length ≤ accept t s)
    (args : List α) (before : Text) :
    print (ε := ε) ⟨fun x s => (.ok (out x), s), fun x s => (.ok (out x), s), fun t s => s ++ t⟩ bytes accept args before =
      (.ok (), before ++ args.flatMap fun x => (bytes x).getD (out x)) := by
  induction args generalizing before with
  | nil => simp [print]
  | cons x xs ih =>
    rw [print]
    rcases hb : bytes x with _ | t
    · simp only [ih, List.flatMap_cons, hb, Option.getD_none, List.append_assoc]
    · simp only [ih, List.flatMap_cons, hb, Option.getD_some, List.append_assoc, List.take_of_length_le (hacc t before)]

/-- `$stdout << x << y` writes the texts one after the other and nothing else, up to the first `to_s` that raises: what came
before has been written, and nothing after.

`_partial`: without strings of bytes (`C108_shift_fails`). -/
theorem C108_shift_partial (kind : α → Kind) (hk : ∀ x, kind x ≠ .bytes) (out : α → Except ε Text) (args : List α) (before : Text) :
    let W : World Text ε α := ⟨fun x s => (out x, s), fun x s => (out x, s), fun t s => s ++ t⟩
    let text : α → Except ε Text := fun x => match kind x with
      | .text t => .ok t
      | _ => out x
    (∀ ts : List Text, args.map text = ts.map .ok → shifts W kind args before = (.self, before ++ ts.flatten)) ∧
    (∀ (ts : List Text) e rest, args.map text = ts.map .ok ++ .error e :: rest → shifts W kind args before = (.raised e, before ++ ts.flatten)) := by
  intro W text
  have key : ∀ x s, shift W kind x s = match text x with
      | .ok t => (.self, s ++ t)
      | .error e => (.raised e, s) := by
    intro x s
    have := hk x
    rcases hx : kind x with t | _ | _
    · simp [shift, text, hx, W]
    · exact absurd hx this
    · rcases ho : out x with e | t <;> simp [shift, text, hx, W, ho]
  induction args generalizing before with
  | nil =>
    refine ⟨fun ts h => ?_, fun ts e rest h => ?_⟩
    · obtain rfl : ts = [] := by simpa using h.symm
      simp [shifts]
    · cases ts <;> simp at h
  | cons x xs ih =>
    refine ⟨fun ts h => ?_, fun ts e rest h => ?_⟩
    · cases ts with
      | nil => simp at h
      | cons t ts =>
        simp only [List.map_cons, List.cons.injEq] at h
        rw [shifts, key, h.1]
        simpa using (ih (before ++ t)).1 ts h.2
    · cases ts with
      | nil =>
        simp only [List.map_cons, List.map_nil, List.nil_append, List.cons.injEq] at h
        rw [shifts, key, h.1]
        simp
      | cons t ts =>
        simp only [List.map_cons, List.cons_append, List.cons.injEq] at h
        rw [shifts, key, h.1]
        simpa using (ih (before ++ t)).2 ts e rest h.2

/-- **C108** (violated).  `$stdout << x` panics if `x` is a string of bytes; Ruby writes the bytes. -/
theorem C108_shift_fails (W : World σ ε α) (kind : α → Kind) {x : α} (h : kind x = .bytes) (s : σ) : shift W kind x s = (.panic, s) := by
  simp [shift, h]

/-- `loop` calls the block again and again, and ends after the first round that breaks or raises: with the value of `break`, with nil for
StopIteration, otherwise with the exception.

`_partial`: the exceptions of classes below StopIteration (`C108_subclass_fails`) and the result of the enumerator (`C108_result_fails`). -/
theorem C108_loop_partial (nil : α) (block : σ → Round α ε × σ) (s : σ)
    (plain : ∀ s c l e, (block s).1 = .exc c l e → stopIteration ∉ l) (r : Except ε α × σ) :
    (∃ n, loop nil block n s = some r) ↔
      ∃ k s', Rounds block k s s' ∧ (block s').2 = r.2 ∧ ending nil (block s').1 = some r.1 := by
  constructor
  · rintro ⟨n, h⟩
    obtain ⟨k, s', o, h2, h3, h4, h5⟩ := loop_end h
    rw [loop_one (plain s')] at h5
    refine ⟨k, s', h2, by rw [h3], ?_⟩
    rcases he : ending nil (block s').1 with _ | r'
    · rw [he] at h5; cases h5
    · rw [he] at h5; cases h5; rfl
  · rintro ⟨k, s', h1, h2, h3⟩
    refine ⟨k + 1, ?_⟩
    rw [loop_rounds h1, loop_one (plain s'), h3, h2]
    rfl

/-- A block that never breaks nor raises is called for ever. -/
theorem C108_forever (nil : α) (block : σ → Round α ε × σ) (s : σ) (h : ∀ s, (block s).1 = .done) (n : Nat) :
    loop nil block n s = none ∧ ∃ s', Rounds block n s s' := by
  induction n generalizing s with
  | zero => exact ⟨rfl, s, .zero⟩
  | succ n ih =>
    have hb : block s = (.done, (block s).2) := by rw [← h s]
    obtain ⟨h1, s', h2⟩ := ih (block s).2
    exact ⟨by rw [loop, hb]; exact h1, s', .succ hb h2⟩

/-! ## Examples and differences -/

/-- A world that writes into a text. -/
def plainWorld : World Text Unit Text := ⟨fun x s => (.ok x, s), fun x s => (.ok x, s), fun t s => s ++ t⟩

example : puts plainWorld [.arr [.leaf "a".toList, .arr [.leaf "b".toList]], .leaf "c".toList] [] = (.ok (), "a\nb\nc\n".toList) := by
  rw [show plainWorld = ⟨fun x s => (.ok (id x), s), fun x s => (.ok (id x), s), fun t s => s ++ t⟩ from rfl, C108_puts_text _ _ (by simp)]
  rfl

example : loop (ε := Unit) 0 (fun s : Nat => if s < 3 then (.done, s + 1) else (.brk s, s)) 5 0 = some (.ok 3, 3) := by rfl

/-- `puts "a\n"` writes two newlines; Ruby adds none to a text that ends with one. -/
theorem C108_newline_fails : puts plainWorld [.leaf "a\n".toList] [] = (.ok (), "a\n\n".toList) := by rfl

/-- If standard output takes only a part of the bytes, `print` drops the rest without an error. -/
theorem C108_print_fails : print plainWorld some (fun _ _ => 1) ["ab".toList, "c".toList] [] = (.ok (), "ac".toList) := by rfl

/-- An exception of a class below StopIteration goes through `loop`; Ruby's `loop` ends. -/
theorem C108_subclass_fails : loop 0 (fun s : Nat => (.exc "Done".toList [stopIteration] 7, s)) 1 0 = some (.error 7, 0) ∧
    ending 0 (.exc "Done".toList [stopIteration] 7) = some (.ok 0) := by
  constructor <;> rfl

/-- When an enumerator ends, `loop` is nil; in Ruby it is the result of the enumerator. -/
theorem C108_result_fails (result : Nat) : loop (ε := Unit) 0 (fun s : Nat => (.stop result, s)) 1 0 = some (.ok 0, 0) := by rfl

/-- `$stdout << "a" << x << "b"`, where `x.to_s` raises. -/
example : shifts (σ := Text) (ε := Nat) (α := Nat) ⟨fun x s => (if x = 2 then .error 5 else .ok ['z'], s), fun _ s => (.ok [], s), fun t s => s ++ t⟩
    (fun x => if x = 1 then .text ['a'] else .other) [1, 3, 2, 1] [] = (.raised 5, ['a', 'z']) := rfl

end Verif.Kernel
