import Verif.File.Paths
/-! # C133: the contents of files

`File.write`, `read`, `binread` and `readlines` (builtin/file.rs).  What the operating system does with a path is a
parameter. -/
namespace Verif.File

/-! ## Model -/

abbrev Bytes := List UInt8

/-- UTF-8 (std `str::as_bytes`, `String::from_utf8`): the one law that is used is that it can be read back. -/
structure Utf8 where
  encode : Text → Bytes
  decode : Bytes → Option Text
  back : ∀ t, decode (encode t) = some t

/-- What is at a place of the file system. -/
inductive Entry
  | absent
  | dir
  | file (b : Bytes)
  deriving DecidableEq

/-- The operating system: to which place a path leads (following links; `none` if a directory on the way is missing),
and what may be done there.  Simplified: neither changes while the program runs. -/
structure OS (P : Type) where
  resolve : PathBuf → Option P
  readable : P → Bool
  writable : P → Bool

abbrev Disk (P : Type) := P → Entry

/-- A Ruby string (value/string.rs:8-11). -/
inductive Str
  | text (t : Text)
  | bytes (b : Bytes)

inductive Fail | argument | runtime
  deriving DecidableEq

/-- `RString::as_string` (value/string.rs), as used by `expect_string` (value/value.rs:657-663). -/
def Str.as_string (u : Utf8) : Str → Except Fail Text
  | .text t => .ok t
  | .bytes b => match u.decode b with
    | some t => .ok t
    | none => .error .argument

variable {P : Type} [DecidableEq P]
set_option linter.unusedSectionVars false

/-- `File::open` and reading to the end (std). -/
def slurp (os : OS P) (d : Disk P) (p : PathBuf) : Option Bytes :=
  match os.resolve p with
  | none => none
  | some x => match d x with
    | .file b => if os.readable x then some b else none
    | _ => none

/-- `std::fs::write`: the file is created or replaced.  Simplified: all or nothing (no full disks). -/
def spew (os : OS P) (d : Disk P) (p : PathBuf) (b : Bytes) : Option (Disk P) :=
  match os.resolve p with
  | none => none
  | some x => match d x with
    | .dir => none
    | _ => if os.writable x then some (fun y => if y = x then .file b else d y) else none

/-- `File.write` (builtin/file.rs:195-212): the path is used as it is. -/
def write (u : Utf8) (os : OS P) (d : Disk P) (path contents : Str) : Except Fail Nat × Disk P :=
  match path.as_string u with
  | .error e => (.error e, d)
  | .ok p => match contents.as_string u with
    | .error e => (.error e, d)
    | .ok t => match spew os d (components p) (u.encode t) with
      | none => (.error .runtime, d)
      | some d' => (.ok (u.encode t).length, d')

/-- `File.read` (builtin/file.rs:152-171): the path goes through `string_to_path`. -/
def read (u : Utf8) (os : OS P) (d : Disk P) (path : Str) : Except Fail Text :=
  match path.as_string u with
  | .error e => .error e
  | .ok p => match slurp os d (string_to_path p) with
    | none => .error .runtime
    | some b => match u.decode b with
      | none => .error .runtime
      | some t => .ok t

/-- `File.binread` (builtin/file.rs:132-150).  A path that leads nowhere is an invalid argument (55-69). -/
def binread (u : Utf8) (os : OS P) (d : Disk P) (path : Str) : Except Fail Bytes :=
  match path.as_string u with
  | .error e => .error e
  | .ok p => match os.resolve (string_to_path p) with
    | none => .error .argument
    | some x => if d x = .absent then .error .argument else
      match slurp os d (string_to_path p) with
      | none => .error .runtime
      | some b => .ok b

/-- `str::split('\n')` (std). -/
def splitLines : Text → List Text
  | [] => [[]]
  | c :: t => if c = '\n' then [] :: splitLines t else
    match splitLines t with
    | l :: ls => (c :: l) :: ls
    | [] => [[c]]

/-- `File.readlines` (builtin/file.rs:173-193). -/
def readlines (u : Utf8) (os : OS P) (d : Disk P) (path : Str) : Except Fail (List Text) :=
  match read u os d path with
  | .error e => .error e
  | .ok t => .ok (splitLines t)

/-! ## Specification -/

/-- Writing one after the other, whatever comes of it. -/
def writeAll (u : Utf8) (os : OS P) : Disk P → List (Text × Text) → Disk P
  | d, [] => d
  | d, (p, t) :: ops => writeAll u os (write u os d (.text p) (.text t)).2 ops

/-- The path leads to this place. -/
def LeadsTo (os : OS P) (p : Text) (x : P) : Prop := os.resolve (components p) = some x

/-- No `..` in the path. -/
def Straight (p : Text) : Prop := Comp.parent ∉ components p

/-! ## Helpers -/

theorem foldl_normal (l : List Comp) (h : ∀ c ∈ l, ∃ n, c = .normal n) (p : PathBuf) : l.foldl pathStep p = p ++ l := by
  induction l generalizing p with
  | nil => simp
  | cons c l ih =>
    obtain ⟨n, rfl⟩ := h _ (List.mem_cons_self ..)
    rw [List.foldl_cons, ih fun c hc => h c (List.mem_cons_of_mem _ hc)]
    simp [pathStep, PathBuf.push]

theorem string_to_path_straight {p : Text} (h : Straight p) : string_to_path p = components p := by
  unfold Straight at h
  unfold string_to_path
  have hr : ∀ c ∈ ((pieces p).filter fun p => p ≠ [] ∧ p ≠ ['.']).map fun p => if p = ['.', '.'] then Comp.parent else .normal p,
      ∃ n, c = .normal n := by
    intro c hc
    have hne : c ≠ .parent := by
      rintro rfl
      exact h (List.mem_append_right _ hc)
    obtain ⟨q, -, rfl⟩ := List.mem_map.1 hc
    by_cases hq : q = ['.', '.']
    · simp [hq] at hne
    · exact ⟨q, by simp [hq]⟩
  unfold components
  rw [List.foldl_append, foldl_normal _ hr]
  congr 1
  split
  · rfl
  · split <;> rfl

theorem write_at (u : Utf8) (os : OS P) (d : Disk P) {p t : Text} {x : P} (hx : LeadsTo os p x) (hd : d x ≠ .dir)
    (hw : os.writable x = true) :
    write u os d (.text p) (.text t) =
      (.ok (u.encode t).length, fun y => if y = x then .file (u.encode t) else d y) := by
  have : spew os d (components p) (u.encode t) = some (fun y => if y = x then .file (u.encode t) else d y) := by
    unfold spew
    rw [hx]
    cases hdx : d x with
    | dir => exact absurd hdx hd
    | absent => simp only [hdx, hw, if_true]
    | file b => simp only [hdx, hw, if_true]
  simp only [write, Str.as_string, this]

theorem write_elsewhere (u : Utf8) (os : OS P) (d : Disk P) {p t : Text} {x : P} (hx : ¬ LeadsTo os p x) :
    (write u os d (.text p) (.text t)).2 x = d x := by
  unfold LeadsTo at hx
  simp only [write, Str.as_string, spew]
  cases hr : os.resolve (components p) with
  | none => rfl
  | some y =>
    rw [hr] at hx
    have hne : x ≠ y := fun e => hx (by rw [e])
    cases hd : d y <;> cases hw : os.writable y <;> simp [hd, hw, hne]

theorem write_dir (u : Utf8) (os : OS P) (d : Disk P) (p t : Text) (x : P) :
    (write u os d (.text p) (.text t)).2 x = .dir ↔ d x = .dir := by
  simp only [write, Str.as_string, spew]
  cases hr : os.resolve (components p) with
  | none => rfl
  | some y =>
    cases hd : d y <;> cases hw : os.writable y <;> simp [hd, hw] <;>
      by_cases hxy : x = y <;> simp [hxy, hd]

theorem writeAll_dir (u : Utf8) (os : OS P) (ops : List (Text × Text)) (d : Disk P) (x : P) :
    writeAll u os d ops x = .dir ↔ d x = .dir := by
  induction ops generalizing d with
  | nil => rfl
  | cons o ops ih => rw [writeAll, ih, write_dir]

theorem writeAll_append (u : Utf8) (os : OS P) (a b : List (Text × Text)) (d : Disk P) :
    writeAll u os d (a ++ b) = writeAll u os (writeAll u os d a) b := by
  induction a generalizing d with
  | nil => rfl
  | cons o a ih => rw [List.cons_append, writeAll, ih, writeAll]

theorem read_file (u : Utf8) (os : OS P) (d : Disk P) {p t : Text} {x : P} (hs : Straight p) (hx : LeadsTo os p x)
    (hr : os.readable x = true) (hd : d x = .file (u.encode t)) : read u os d (.text p) = .ok t := by
  unfold LeadsTo at hx
  simp only [read, Str.as_string, string_to_path_straight hs, slurp, hx, hd, hr, if_true, u.back]

theorem binread_file (u : Utf8) (os : OS P) (d : Disk P) {p : Text} {b : Bytes} {x : P} (hs : Straight p)
    (hx : LeadsTo os p x) (hr : os.readable x = true) (hd : d x = .file b) : binread u os d (.text p) = .ok b := by
  unfold LeadsTo at hx
  simp [binread, Str.as_string, string_to_path_straight hs, slurp, hx, hd, hr]

theorem splitLines_ne (t : Text) : splitLines t ≠ [] := by
  cases t with
  | nil => simp [splitLines]
  | cons c t => 
    unfold splitLines
    split
    · simp
    · split <;> simp

theorem splitLines_spec (t : Text) :
    List.intercalate ['\n'] (splitLines t) = t ∧ ∀ l ∈ splitLines t, '\n' ∉ l := by
  induction t with
  | nil => exact ⟨rfl, by simp [splitLines]⟩
  | cons c t ih =>
    obtain ⟨h1, h2⟩ := ih
    have hne := splitLines_ne t
    unfold splitLines
    cases hs : splitLines t with
    | nil => exact absurd hs hne
    | cons l ls =>
      rw [hs] at h1 h2
      by_cases hc : c = '\n'
      · simp only [hc, if_true]
        refine ⟨?_, by simpa using h2⟩
        rw [List.intercalate_cons_cons, h1]; rfl
      · simp only [hc, if_false]
        refine ⟨?_, ?_⟩
        · cases ls with
          | nil => simpa [List.intercalate] using h1
          | cons m ms =>
            rw [List.intercalate_cons_cons] at h1 ⊢
            rw [List.cons_append, List.cons_append, h1]
        · intro k hk
          rcases List.mem_cons.1 hk with rfl | hk
          · simp only [List.mem_cons, not_or]
            exact ⟨fun e => hc e.symm, h2 _ (List.mem_cons_self ..)⟩
          · exact h2 _ (List.mem_cons_of_mem _ hk)

/-! ## C133 -/

/-- **C133**: after any writes, reading a path gives the text that was last written to its place, whatever path was
used for writing, and `binread` gives its bytes.  Missing: paths with `..` (`C133_link_fails`). -/
theorem C133_history_partial (u : Utf8) (os : OS P) (d : Disk P) {before after : List (Text × Text)} {p q t : Text}
    {x : P} (hp : Straight p) (hpx : LeadsTo os p x) (hqx : LeadsTo os q x) (hr : os.readable x = true)
    (hw : os.writable x = true) (hd : d x ≠ .dir) (ha : ∀ o ∈ after, ¬ LeadsTo os o.1 x) :
    read u os (writeAll u os d (before ++ (q, t) :: after)) (.text p) = .ok t ∧
      binread u os (writeAll u os d (before ++ (q, t) :: after)) (.text p) = .ok (u.encode t) := by
  have hx : writeAll u os d (before ++ (q, t) :: after) x = .file (u.encode t) := by
    rw [writeAll_append, writeAll, write_at u os _ hqx (by rwa [ne_eq, writeAll_dir]) hw]
    dsimp only
    generalize hd' : (fun y => if y = x then Entry.file (u.encode t) else writeAll u os d before y) = d'
    have hd0 : d' x = .file (u.encode t) := by rw [← hd']; simp
    clear hd'
    induction after generalizing d' with
    | nil => exact hd0
    | cons o after ih =>
      refine ih (fun o ho => ha o (List.mem_cons_of_mem _ ho)) _ ?_
      rw [write_elsewhere u os d' (ha o (List.mem_cons_self ..)), hd0]
  exact ⟨read_file u os _ hp hpx hr hx, binread_file u os _ hp hpx hr hx⟩

/-- **C133**: what nobody writes to stays as it is. -/
theorem C133_untouched (u : Utf8) (os : OS P) (d : Disk P) {ops : List (Text × Text)} {x : P}
    (h : ∀ o ∈ ops, ¬ LeadsTo os o.1 x) : writeAll u os d ops x = d x := by
  induction ops generalizing d with
  | nil => rfl
  | cons o ops ih =>
    rw [writeAll, ih _ fun o ho => h o (List.mem_cons_of_mem _ ho), write_elsewhere u os d (h o (List.mem_cons_self ..))]

/-- **C133**: `write` tells the number of bytes, or raises and then changes nothing. -/
theorem C133_write (u : Utf8) (os : OS P) (d : Disk P) (p c : Str) :
    (∃ t, c.as_string u = .ok t ∧ (write u os d p c).1 = .ok (u.encode t).length) ∨
      (∃ e, (write u os d p c).1 = .error e) ∧ (write u os d p c).2 = d := by
  unfold write
  cases p.as_string u with
  | error e => exact .inr ⟨⟨e, rfl⟩, rfl⟩
  | ok p =>
    cases hc : c.as_string u with
    | error e => exact .inr ⟨⟨e, rfl⟩, rfl⟩
    | ok t =>
      dsimp only
      cases hs : spew os d (components p) (u.encode t) with
      | none => exact .inr ⟨⟨_, rfl⟩, rfl⟩
      | some d' => exact .inl ⟨t, rfl, rfl⟩

/-- **C133**: where there is no file, reading raises. -/
theorem C133_missing (u : Utf8) (os : OS P) (d : Disk P) {p : Text} (hp : Straight p)
    (h : ∀ x, LeadsTo os p x → ∀ b, d x ≠ .file b) :
    read u os d (.text p) = .error .runtime ∧ readlines u os d (.text p) = .error .runtime ∧
      ∃ e, binread u os d (.text p) = .error e := by
  have hs : slurp os d (components p) = none := by
    unfold slurp
    cases hr : os.resolve (components p) with
    | none => rfl
    | some x =>
      cases hd : d x with
      | file b => exact absurd hd (h x hr b)
      | absent => simp only [hd]
      | dir => simp only [hd]
  have h1 : read u os d (.text p) = .error .runtime := by
    simp only [read, Str.as_string, string_to_path_straight hp, hs]
  refine ⟨h1, by simp only [readlines, h1], ?_⟩
  simp only [binread, Str.as_string, string_to_path_straight hp, hs]
  cases os.resolve (components p) with
  | none => exact ⟨_, rfl⟩
  | some x =>
    dsimp only
    split <;> exact ⟨_, rfl⟩

/-- **C133**: `readlines` gives the lines of what `read` gives: texts without newlines that make up the text when
newlines are put between them.  Missing: Ruby leaves each newline in its line (`C133_lines_fails`). -/
theorem C133_lines_partial (u : Utf8) (os : OS P) (d : Disk P) {p : Str} {t : Text} (h : read u os d p = .ok t) :
    ∃ ls, readlines u os d p = .ok ls ∧ List.intercalate ['\n'] ls = t ∧ ls ≠ [] ∧ ∀ l ∈ ls, '\n' ∉ l := by
  refine ⟨splitLines t, by simp only [readlines, h], (splitLines_spec t).1, splitLines_ne t, (splitLines_spec t).2⟩

/-! ## Instances -/

open Classical in
/-- UTF-8 itself, as Lean has it. -/
noncomputable def utf8 : Utf8 where
  encode t := (String.ofList t).toByteArray.data.toList
  decode b := if h : (ByteArray.mk b.toArray).IsValidUTF8 then some (String.ofByteArray ⟨b.toArray⟩ h).toList else none
  back t := by
    have h := (String.ofList t).isValidUTF8
    simp only [Array.toArray_toList]
    rw [dif_pos h]
    exact congrArg some (String.toList_ofList (l := t))

/-- Links: `l` leads to `/a/b`, so `l/../f` is `/a/f` for the system, and `f` (here `/f`) for `string_to_path`. -/
def linked : OS Text where
  resolve p := if p = [.normal ['l'], .parent, .normal ['f']] then some "/a/f".toList else some (PathBuf.text p)
  readable _ := true
  writable _ := true

/-- **C133** fails: behind a link and `..`, what was written is not what is read. -/
theorem C133_link_fails (u : Utf8) (t : Text) :
    (write u linked (fun _ => .absent) (.text "l/../f".toList) (.text t)).1 = .ok (u.encode t).length ∧
      read u linked (write u linked (fun _ => .absent) (.text "l/../f".toList) (.text t)).2 (.text "l/../f".toList) =
        .error .runtime := by
  have hx : LeadsTo linked "l/../f".toList "/a/f".toList := by unfold LeadsTo; decide
  rw [write_at u linked _ hx (by simp) rfl]
  refine ⟨rfl, ?_⟩
  have hp : string_to_path "l/../f".toList = [.normal ['f']] := by decide
  have hq : linked.resolve [.normal ['f']] = some ['f'] := by decide
  have hne : ¬ (['f'] : Text) = "/a/f".toList := by decide
  simp only [read, Str.as_string, hp, slurp, hq, hne, if_false]

/-- **C133** fails: a file of the one line `a` has, for `readlines`, the two lines `a` and the empty one, without
newlines. -/
theorem C133_lines_fails (u : Utf8) (os : OS P) (d : Disk P) {p : Str} (h : read u os d p = .ok ['a', '\n']) :
    readlines u os d p = .ok [['a'], []] := by
  simp only [readlines, h]; rfl

example (u : Utf8) : read u linked (writeAll u linked (fun _ => .absent)
    ([("g".toList, "1".toList)] ++ ("f".toList, "2".toList) :: [("g".toList, "3".toList)])) (.text "f".toList) = .ok "2".toList :=
  (C133_history_partial (x := ['f']) u linked _ (by unfold Straight; decide) (by unfold LeadsTo; decide)
    (by unfold LeadsTo; decide) rfl rfl (by simp) (by
      intro o ho; rw [List.mem_singleton.1 ho]; unfold LeadsTo; decide)).1

example (u : Utf8) : read u linked (fun _ => .absent) (.text "f".toList) = .error .runtime :=
  (C133_missing u linked _ (by unfold Straight; decide) (by simp)).1

end Verif.File
