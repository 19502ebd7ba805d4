import Verif.Str.Model
/-! # C92: paths

`File.expand_path`, `basename`, `dirname`, `extname` and `join` (builtin/file.rs).  The file system is not
touched by them; the working directory and the home directory are parameters. -/
namespace Verif.File

abbrev Text := List Char
abbrev Name := List Char

/-! ## Model -/

/-- The parts of a text between slashes. -/
def pieces : Text → List Text
  | [] => [[]]
  | c :: t => if c = '/' then [] :: pieces t else
    match pieces t with
    | p :: ps => (c :: p) :: ps
    | [] => [[c]]

/-- `std::path::Component` on Unix. -/
inductive Comp
  | root
  | cur
  | parent
  | normal (n : Name)
  deriving DecidableEq

def isAbsolute (t : Text) : Bool := t.head? = some '/'

/-- `Path::components` (std, on Unix): empty parts and `.` disappear, but for `.` at the start of a relative path. -/
def components (t : Text) : List Comp :=
  (if isAbsolute t then [.root] else if (pieces t).head? = some ['.'] then [.cur] else []) ++
  ((pieces t).filter fun p => p ≠ [] ∧ p ≠ ['.']).map fun p => if p = ['.', '.'] then .parent else .normal p

/-- A `PathBuf` is modelled by its components; its text is needed only at the end. -/
abbrev PathBuf := List Comp

def Comp.text : Comp → Text
  | .root => []
  | .cur => ['.']
  | .parent => ['.', '.']
  | .normal n => n

/-- Texts with slashes between them. -/
def slashed : List Text → Text
  | [] => []
  | [p] => p
  | p :: q :: ps => p ++ '/' :: slashed (q :: ps)

/-- `conv_pathbuf` (builtin.rs:282-284): the text that `push` builds up. -/
def PathBuf.text : PathBuf → Text
  | .root :: cs => '/' :: slashed (cs.map Comp.text)
  | cs => slashed (cs.map Comp.text)

/-- `Path::file_name` (std). -/
def PathBuf.fileName (p : PathBuf) : Option Name :=
  match p.getLast? with
  | some (.normal n) => some n
  | _ => none

/-- `Path::parent` (std). -/
def PathBuf.parent (p : PathBuf) : Option PathBuf :=
  match p.getLast? with
  | some .root => none
  | some _ => some p.dropLast
  | none => none

/-- `PathBuf::pop` (std). -/
def PathBuf.pop (p : PathBuf) : PathBuf := (PathBuf.parent p).getD p

/-- `PathBuf::push` (std): an absolute path replaces what is there. -/
def PathBuf.push (p q : PathBuf) : PathBuf :=
  match q with
  | .root :: _ => q
  | .cur :: q' => if p = [] then q else p ++ q'
  | _ => p ++ q

/-- One round of `string_to_path` (builtin/file.rs:34-40). -/
def pathStep (path : PathBuf) (p : Comp) : PathBuf :=
  if p = .parent ∧ (PathBuf.fileName path).isSome then PathBuf.pop path else PathBuf.push path [p]

/-- `string_to_path` (builtin/file.rs:31-42). -/
def string_to_path (t : Text) : PathBuf := (components t).foldl pathStep []

/-- One round of `expand_path` (builtin/file.rs:230-246). -/
def expandStep (home : List Name) (res : PathBuf) : Comp → PathBuf
  | .cur => res
  | .normal n => if n = ['~'] then .root :: home.map .normal else PathBuf.push res [.normal n]
  | .parent => PathBuf.pop res
  | .root => [.root]

/-- `File.expand_path` (builtin/file.rs:210-255); `cwd` and `home` are the names on the way from the root. -/
def expand_path (cwd home : List Name) (t : Text) (dir : Option Text) : Text :=
  let path := match dir with
    | none => string_to_path t
    | some d => PathBuf.push (string_to_path d) (string_to_path t)
  PathBuf.text (path.foldl (expandStep home) (.root :: cwd.map .normal))

/-- `File.basename` (builtin/file.rs:103-111); `none`: nil. -/
def basename (t : Text) : Option Name := PathBuf.fileName (string_to_path t)

/-- `rsplit_file_at_dot` (std): what is before and after the last dot. -/
def rsplit (n : Name) : Option Name × Option Name :=
  let after := (n.reverse.takeWhile (· ≠ '.')).reverse
  let before := (n.reverse.dropWhile (· ≠ '.')).tail.reverse
  if '.' ∈ n then (if before = [] then (some n, none) else (some before, some after)) else (some n, none)

/-- `File.extname` (builtin/file.rs:113-121), `Path::extension` (std). -/
def extname (t : Text) : Text :=
  match PathBuf.fileName (string_to_path t) with
  | some n => match (rsplit n).2 with
    | some e => '.' :: e
    | none => []
  | none => []

/-- `File.dirname` (builtin/file.rs:123-131). -/
def dirname (t : Text) : Text :=
  match PathBuf.parent (string_to_path t) with
  | some p => PathBuf.text p
  | none => []

/-- `flatten` in `join` for a text (builtin/file.rs:81-91). -/
def joinStep (path s : Text) : Text :=
  let path := if path ≠ [] ∧ path.getLast? ≠ some '/' then path ++ ['/'] else path
  path ++ (if path ≠ [] ∧ s.head? = some '/' then s.tail else s)

mutual
/-- Arguments of `join`: texts and arrays of such. -/
inductive Arg
  | str (t : Text)
  | arr (as : Args)
inductive Args
  | nil
  | cons (a : Arg) (as : Args)
end

mutual
/-- `flatten` in `join` (builtin/file.rs:74-93). -/
def flatten (path : Text) : Arg → Text
  | .str s => joinStep path s
  | .arr as => join path as
/-- The loops of `flatten` and `File.join` (builtin/file.rs:77-79, 94-98). -/
def join (path : Text) : Args → Text
  | .nil => path
  | .cons a as => join (flatten path a) as
end

/-! ## Specification -/

/-- The names in a text: its parts between slashes that are not empty. -/
def names (t : Text) : List Name := (pieces t).filter (· ≠ [])

/-- Going to `n` from a directory. -/
def go (dir : List Name) (n : Name) : List Name :=
  if n = ['.'] then dir else if n = ['.', '.'] then dir.dropLast else dir ++ [n]

/-- The directory or file that a text names, seen from the directory `cwd`: the names on the way from the root. -/
def place (cwd : List Name) (t : Text) : List Name := (names t).foldl go (if isAbsolute t then [] else cwd)

/-- The canonical text of it. -/
def absolute (p : List Name) : Text := '/' :: slashed p

/-- Names that directories and files can have. -/
def Proper (n : Name) : Prop := n ≠ [] ∧ n ≠ ['.'] ∧ n ≠ ['.', '.'] ∧ '/' ∉ n

/-- No step leaves the directory in which the walk begins, `k` levels above. -/
def Inside : Nat → List Name → Prop
  | _, [] => True
  | k, n :: ns => if n = ['.'] then Inside k ns else if n = ['.', '.'] then 0 < k ∧ Inside (k - 1) ns else Inside (k + 1) ns

mutual
/-- The texts in the arguments of `join`, in their order. -/
def Arg.texts : Arg → List Text
  | .str t => [t]
  | .arr as => as.texts
def Args.texts : Args → List Text
  | .nil => []
  | .cons a as => a.texts ++ as.texts
end

/-! ## Helpers -/

theorem pieces_ne_nil (t : Text) : pieces t ≠ [] := by
  cases t with
  | nil => simp [pieces]
  | cons c t =>
    rw [pieces]
    split
    · simp
    · split <;> simp

theorem pieces_cons {c : Char} (h : c ≠ '/') (t : Text) : ∃ p ps, pieces t = p :: ps ∧ pieces (c :: t) = (c :: p) :: ps := by
  cases hp : pieces t with
  | nil => exact absurd hp (pieces_ne_nil t)
  | cons p ps => exact ⟨p, ps, rfl, by rw [pieces, if_neg h, hp]⟩

theorem pieces_noslash : ∀ {p : Text}, '/' ∉ p → pieces p = [p]
  | [], _ => rfl
  | c :: p, h => by
    have hc : c ≠ '/' := fun e => h (by simp [e])
    rw [pieces, if_neg hc, pieces_noslash (p := p) (fun e => h (by simp [e]))]

/-- The parts of `a/b`. -/
theorem pieces_slash (a b : Text) : pieces (a ++ '/' :: b) = pieces a ++ pieces b := by
  induction a with
  | nil => simp [pieces]
  | cons c a ih =>
    by_cases hc : c = '/'
    · subst hc; simp [pieces, ih]
    · obtain ⟨p, ps, h1, h2⟩ := pieces_cons hc a
      rw [List.cons_append, pieces, if_neg hc, ih, h1, h2]; rfl

theorem mem_pieces : ∀ {t p : Text}, p ∈ pieces t → '/' ∉ p
  | [], p, h => by simp [pieces] at h; simp [h]
  | c :: t, p, h => by
    by_cases hc : c = '/'
    · rw [pieces, if_pos hc] at h
      rcases List.mem_cons.1 h with rfl | h
      · simp
      · exact mem_pieces h
    · obtain ⟨q, ps, h1, h2⟩ := pieces_cons hc t
      rw [h2] at h
      rcases List.mem_cons.1 h with rfl | h
      · have := mem_pieces (t := t) (p := q) (by rw [h1]; simp)
        simp [this]
        exact fun e => hc e.symm
      · exact mem_pieces (t := t) (by rw [h1]; simp [h])

theorem names_slash (a b : Text) : names (a ++ '/' :: b) = names a ++ names b := by simp [names, pieces_slash]

theorem names_nil : names [] = [] := rfl

theorem mem_names {t n : Text} (h : n ∈ names t) : n ≠ [] ∧ '/' ∉ n := by
  simp only [names, List.mem_filter, decide_eq_true_eq] at h
  exact ⟨h.2, mem_pieces h.1⟩

theorem names_noslash {p : Text} (h : '/' ∉ p) (hn : p ≠ []) : names p = [p] := by simp [names, pieces_noslash h, hn]

theorem names_slashed : ∀ {ps : List Text}, (∀ p ∈ ps, p ≠ [] ∧ '/' ∉ p) → names (slashed ps) = ps
  | [], _ => rfl
  | [p], h => by have := h p (by simp); exact names_noslash this.2 this.1
  | p :: q :: ps, h => by
    have := h p (by simp)
    rw [slashed, names_slash, names_noslash this.2 this.1, names_slashed fun r hr => h r (List.mem_cons_of_mem _ hr)]
    rfl

theorem names_absolute {ps : List Text} (h : ∀ p ∈ ps, p ≠ [] ∧ '/' ∉ p) : names ('/' :: slashed ps) = ps := by
  have := names_slash [] (slashed ps)
  rw [names_slashed h] at this
  simpa [names_nil] using this

/-- Where a component leads. -/
def walk (dir : List Name) : Comp → List Name
  | .root => []
  | .cur => dir
  | .parent => dir.dropLast
  | .normal n => dir ++ [n]

theorem isAbsolute_pieces (t : Text) (h : isAbsolute t = false) : (pieces t).head? = some [] → t = [] := by
  cases t with
  | nil => simp
  | cons c t =>
    have hc : c ≠ '/' := by simpa [isAbsolute] using h
    obtain ⟨p, ps, h1, h2⟩ := pieces_cons hc t
    simp [h2]

theorem walk_filter (ps : List Text) (dir : List Name) :
    ((ps.filter fun p => p ≠ [] ∧ p ≠ ['.']).map fun p => if p = ['.', '.'] then Comp.parent else .normal p).foldl walk dir =
    (ps.filter (· ≠ [])).foldl go dir := by
  induction ps generalizing dir with
  | nil => rfl
  | cons p ps ih =>
    by_cases h1 : p = []
    · subst h1; simpa using ih dir
    · by_cases h2 : p = ['.']
      · subst h2; simpa [go] using ih dir
      · by_cases h3 : p = ['.', '.']
        · subst h3; simpa [go, walk] using ih dir.dropLast
        · simpa [go, walk, h1, h2, h3] using ih (dir ++ [p])

/-- The components of a text lead to where the text leads. -/
theorem walk_components (t : Text) (dir : List Name) : (components t).foldl walk dir = place dir t := by
  rw [components, List.foldl_append, walk_filter, place, names]
  congr 1
  split
  · rfl
  · split <;> rfl

/-- A component after the first. -/
def Inner : Comp → Prop
  | .root => False
  | .cur => False
  | .parent => True
  | .normal n => Proper n

/-- A sequence of components as paths have it. -/
def Shape : PathBuf → Prop
  | [] => True
  | c :: cs => (c = .root ∨ c = .cur ∨ Inner c) ∧ ∀ d ∈ cs, Inner d

theorem shape_components (t : Text) : Shape (components t) := by
  have hin : ∀ d ∈ ((pieces t).filter fun p => p ≠ [] ∧ p ≠ ['.']).map fun p => if p = ['.', '.'] then Comp.parent else .normal p,
      Inner d := by
    intro d hd
    obtain ⟨p, hp, rfl⟩ := List.mem_map.1 hd
    simp only [List.mem_filter, decide_eq_true_eq] at hp
    split
    · trivial
    · rename_i h
      exact ⟨hp.2.1, hp.2.2, h, mem_pieces hp.1⟩
  unfold components
  split
  · exact ⟨.inl rfl, hin⟩
  · split
    · exact ⟨.inr (.inl rfl), hin⟩
    · rw [List.nil_append]
      generalize ((pieces t).filter fun p => p ≠ [] ∧ p ≠ ['.']).map (fun p => if p = ['.', '.'] then Comp.parent else .normal p) = l at hin ⊢
      cases l with
      | nil => trivial
      | cons c cs => exact ⟨.inr (.inr (hin c (by simp))), fun d hd => hin d (by simp [hd])⟩

theorem Shape.snoc {p : PathBuf} (h : Shape p) {c : Comp} (hc : Inner c) : Shape (p ++ [c]) := by
  cases p with
  | nil => exact ⟨.inr (.inr hc), by simp⟩
  | cons a p =>
    refine ⟨h.1, ?_⟩
    intro d hd
    rcases List.mem_append.1 hd with hd | hd
    · exact h.2 d hd
    · simp at hd; exact hd ▸ hc

theorem Shape.dropLast {p : PathBuf} (h : Shape p) : Shape p.dropLast := by
  cases p with
  | nil => exact h
  | cons a p =>
    cases p with
    | nil => trivial
    | cons b p => exact ⟨h.1, fun d hd => h.2 d (List.dropLast_subset _ hd)⟩

theorem push_inner {p : PathBuf} {c : Comp} (hc : Inner c) : PathBuf.push p [c] = p ++ [c] := by
  cases c <;> first | rfl | exact absurd hc (by simp [Inner])

theorem fileName_some {p : PathBuf} {n : Name} (h : PathBuf.fileName p = some n) : ∃ q, p = q ++ [.normal n] := by
  unfold PathBuf.fileName at h
  split at h
  · rename_i m hm
    cases h
    obtain ⟨q, rfl⟩ := List.getLast?_eq_some_iff.1 hm
    exact ⟨q, rfl⟩
  · cases h

theorem pop_normal (q : PathBuf) (n : Name) : PathBuf.pop (q ++ [.normal n]) = q := by
  simp [PathBuf.pop, PathBuf.parent]

theorem fileName_snoc (q : PathBuf) (n : Name) : PathBuf.fileName (q ++ [.normal n]) = some n := by
  simp [PathBuf.fileName]

/-- A round of `string_to_path`: `..` takes the name before it away, or stays. -/
theorem pathStep_cases {p : PathBuf} {c : Comp} (hc : Inner c) :
    (∃ q n, p = q ++ [.normal n] ∧ c = .parent ∧ pathStep p c = q) ∨ pathStep p c = p ++ [c] := by
  unfold pathStep
  split
  · rename_i h
    obtain ⟨n, hn⟩ := Option.isSome_iff_exists.1 h.2
    obtain ⟨q, rfl⟩ := fileName_some hn
    exact .inl ⟨q, n, rfl, h.1, pop_normal q n⟩
  · exact .inr (push_inner hc)

theorem steps_inner {f : List Name → Comp → List Name} {Ok : Name → Prop}
    (hf : ∀ dir n, Ok n → f (f dir (.normal n)) .parent = dir) :
    ∀ {cs : List Comp} {p : PathBuf}, (∀ c ∈ cs, Inner c) → (∀ n, Comp.normal n ∈ cs → Ok n) → Shape p →
    (∀ n, Comp.normal n ∈ p → Ok n) →
    Shape (cs.foldl pathStep p) ∧ (∀ n, Comp.normal n ∈ cs.foldl pathStep p → Ok n) ∧
    ∀ dir, (cs.foldl pathStep p).foldl f dir = cs.foldl f (p.foldl f dir)
  | [], p, _, _, h, ht => ⟨h, ht, fun _ => rfl⟩
  | c :: cs, p, hi, hn, h, ht => by
    have hc := hi c (by simp)
    have hcs : ∀ d ∈ cs, Inner d := fun d hd => hi d (by simp [hd])
    have hns : ∀ n, Comp.normal n ∈ cs → Ok n := fun n hd => hn n (by simp [hd])
    rw [List.foldl_cons]
    rcases pathStep_cases (p := p) hc with ⟨q, n, rfl, rfl, e⟩ | e
    · rw [e]
      have hq : Shape q := by have := h.dropLast; simpa using this
      obtain ⟨h1, h2, h3⟩ := steps_inner hf hcs hns hq (fun d hd => ht d (by simp [hd]))
      refine ⟨h1, h2, fun dir => ?_⟩
      rw [h3, List.foldl_append, List.foldl_cons]
      have : Ok n := ht n (by simp)
      simp [hf _ n this]
    · rw [e]
      obtain ⟨h1, h2, h3⟩ := steps_inner hf hcs hns (h.snoc hc) (by
        intro n hd
        rcases List.mem_append.1 hd with hd | hd
        · exact ht n hd
        · simp at hd; exact hn n (by simp [hd]))
      refine ⟨h1, h2, fun dir => ?_⟩
      rw [h3, List.foldl_append]; rfl

/-- `string_to_path` changes nothing about where a path leads. -/
theorem stp_walk {f : List Name → Comp → List Name} {Ok : Name → Prop} (hf : ∀ dir n, Ok n → f (f dir (.normal n)) .parent = dir)
    {cs : List Comp} (hs : Shape cs) (ht : ∀ n, Comp.normal n ∈ cs → Ok n) :
    Shape (cs.foldl pathStep []) ∧ ∀ dir, (cs.foldl pathStep []).foldl f dir = cs.foldl f dir := by
  cases cs with
  | nil => exact ⟨trivial, fun _ => rfl⟩
  | cons c cs =>
    have e : pathStep [] c = [c] := by
      unfold pathStep
      rw [if_neg (by simp [PathBuf.fileName])]
      cases c <;> rfl
    rw [List.foldl_cons, e]
    obtain ⟨h1, h2, h3⟩ := steps_inner hf (p := [c]) hs.2 (fun d hd => ht d (by simp [hd])) ⟨hs.1, by simp⟩
      (fun n hn => ht n (by simp at hn; simp [hn]))
    exact ⟨h1, fun dir => by rw [h3]; rfl⟩

theorem walk_back (dir : List Name) (n : Name) : walk (walk dir (.normal n)) .parent = dir := by simp [walk]

/-- Where a component leads in `expand_path`. -/
def walkH (home dir : List Name) : Comp → List Name
  | .normal n => if n = ['~'] then home else dir ++ [n]
  | c => walk dir c

theorem walkH_back (home dir : List Name) (n : Name) (h : n ≠ ['~']) : walkH home (walkH home dir (.normal n)) .parent = dir := by
  simp [walkH, walk, h]

theorem walkH_walk (home : List Name) : ∀ {cs : List Comp} {dir : List Name}, (∀ n, Comp.normal n ∈ cs → n ≠ ['~']) →
    cs.foldl (walkH home) dir = cs.foldl walk dir
  | [], _, _ => rfl
  | c :: cs, dir, h => by
    have e : walkH home dir c = walk dir c := by
      cases c with
      | normal n => simp [walkH, walk, h n (by simp)]
      | _ => rfl
    rw [List.foldl_cons, List.foldl_cons, e, walkH_walk home fun n hn => h n (by simp [hn])]

theorem expandStep_walkH (home dir : List Name) (c : Comp) :
    expandStep home (.root :: dir.map .normal) c = .root :: (walkH home dir c).map .normal := by
  cases c with
  | root => rfl
  | cur => rfl
  | parent =>
    show PathBuf.pop _ = _
    rcases List.eq_nil_or_concat dir with rfl | ⟨d, n, rfl⟩
    · rfl
    · have := pop_normal (.root :: d.map .normal) n
      simpa [walkH, walk] using this
  | normal n =>
    simp only [expandStep, walkH]
    split
    · rfl
    · simp [PathBuf.push]

theorem expand_fold (home : List Name) : ∀ (cs : List Comp) (dir : List Name),
    cs.foldl (expandStep home) (.root :: dir.map .normal) = .root :: (cs.foldl (walkH home) dir).map .normal
  | [], _ => rfl
  | c :: cs, dir => by rw [List.foldl_cons, List.foldl_cons, expandStep_walkH, expand_fold home cs]

theorem text_root (p : List Name) : PathBuf.text (.root :: p.map .normal) = absolute p := by
  simp only [PathBuf.text, absolute, List.map_map]
  congr 2
  induction p with
  | nil => rfl
  | cons n p ih => simpa [Comp.text] using ih

theorem push_fold (f : List Name → Comp → List Name) (hr : ∀ d d', f d .root = f d' .root) (hc : ∀ d, f d .cur = d) (p q : PathBuf)
    (dir : List Name) : (PathBuf.push p q).foldl f dir = q.foldl f (p.foldl f dir) := by
  unfold PathBuf.push
  split
  · rw [List.foldl_cons, List.foldl_cons, hr]
  · split
    · rename_i h; subst h; rfl
    · rw [List.foldl_append, List.foldl_cons, hc]
  · rw [List.foldl_append]

theorem normal_components {t : Text} {n : Name} (h : Comp.normal n ∈ components t) : n ∈ names t := by
  unfold components at h
  have : Comp.normal n ∈ ((pieces t).filter fun p => p ≠ [] ∧ p ≠ ['.']).map fun p => if p = ['.', '.'] then Comp.parent else .normal p := by
    rcases List.mem_append.1 h with h | h
    · split at h
      · simp at h
      · split at h <;> simp at h
    · exact h
  obtain ⟨p, hp, e⟩ := List.mem_map.1 this
  simp only [List.mem_filter, decide_eq_true_eq] at hp
  split at e
  · cases e
  · cases e
    simp [names, hp.1, hp.2.1]

/-- Text and components of a path. -/
theorem place_text {p : PathBuf} (h : Shape p) (dir : List Name) : place dir (PathBuf.text p) = p.foldl walk dir := by
  have hin : ∀ {cs : List Comp}, (∀ c ∈ cs, Inner c) → (∀ q ∈ cs.map Comp.text, q ≠ [] ∧ '/' ∉ q) ∧
      ∀ dir, (cs.map Comp.text).foldl go dir = cs.foldl walk dir := by
    intro cs
    induction cs with
    | nil => intro _; exact ⟨by simp, fun _ => rfl⟩
    | cons c cs ih =>
      intro hi
      obtain ⟨h1, h2⟩ := ih fun d hd => hi d (by simp [hd])
      have hc := hi c (by simp)
      cases c with
      | root => exact hc.elim
      | cur => exact hc.elim
      | parent => exact ⟨List.forall_mem_cons.2 ⟨by simp [Comp.text], h1⟩, fun dir => h2 dir.dropLast⟩
      | normal n =>
        refine ⟨List.forall_mem_cons.2 ⟨⟨hc.1, hc.2.2.2⟩, h1⟩, fun dir => ?_⟩
        have e : go dir n = dir ++ [n] := by rw [go, if_neg hc.2.1, if_neg hc.2.2.1]
        show ((cs.map Comp.text).foldl go (go dir n)) = _
        rw [e, h2]; rfl
  cases p with
  | nil => rfl
  | cons c cs =>
    obtain ⟨h1, h2⟩ := hin h.2
    have rel : c ≠ .root → c.text ≠ [] ∧ '/' ∉ c.text := by
      intro hr
      rcases h.1 with rfl | rfl | hc
      · exact absurd rfl hr
      · simp [Comp.text]
      · cases c with
        | root => exact hc.elim
        | cur => exact hc.elim
        | parent => simp [Comp.text]
        | normal n => exact ⟨hc.1, hc.2.2.2⟩
    by_cases hr : c = .root
    · subst hr
      show place dir ('/' :: slashed _) = _
      rw [place, names_absolute h1, h2]; rfl
    · obtain ⟨r1, r2⟩ := rel hr
      have ht : PathBuf.text (c :: cs) = slashed ((c :: cs).map Comp.text) := by
        cases c <;> first | rfl | exact absurd rfl hr
      have ha : isAbsolute (slashed ((c :: cs).map Comp.text)) = false := by
        cases hx : c.text with
        | nil => exact absurd hx r1
        | cons x xs =>
          have : x ≠ '/' := fun e => r2 (by rw [hx, e]; simp)
          cases cs with
          | nil => simp [slashed, isAbsolute, hx, this]
          | cons d cs => simp [slashed, isAbsolute, hx, this]
      have hw : go dir c.text = walk dir c := by
        rcases h.1 with e | e | hc
        · exact absurd e hr
        · subst e; rfl
        · have := (hin (cs := [c]) (by simpa using hc)).2 dir
          simpa using this
      rw [ht, place, ha, names_slashed]
      · simp only [List.map_cons, List.foldl_cons, if_neg (show ¬ (false = true) by simp), hw, h2]
      · intro q hq
        rcases List.mem_cons.1 hq with rfl | hq
        · exact ⟨r1, r2⟩
        · exact h1 q hq

/-- The last name of a text. -/
theorem components_last {t : Text} {ns : List Name} {n : Name} (h : names t = ns ++ [n]) (h1 : n ≠ ['.']) (h2 : n ≠ ['.', '.']) :
    ∃ X, components t = X ++ [.normal n] ∧ Proper n := by
  have hn := mem_names (t := t) (n := n) (by rw [h]; simp)
  refine ⟨(if isAbsolute t then [.root] else if (pieces t).head? = some ['.'] then [.cur] else []) ++
    ((ns.filter (· ≠ ['.'])).map fun p => if p = ['.', '.'] then .parent else .normal p), ?_, hn.1, h1, h2, hn.2⟩
  have e : ((pieces t).filter fun p => p ≠ [] ∧ p ≠ ['.']) = (names t).filter (· ≠ ['.']) := by
    rw [names, List.filter_filter]
    congr 1
    funext p
    simp [Bool.and_comm]
  rw [components, e, h]
  simp [h1, h2]

theorem stp_last {t : Text} {X : List Comp} {n : Name} (h : components t = X ++ [.normal n]) :
    string_to_path t = X.foldl pathStep [] ++ [.normal n] := by
  rw [string_to_path, h, List.foldl_append]
  simp [pathStep, PathBuf.push]

theorem Shape.init {X : List Comp} {c : Comp} (h : Shape (X ++ [c])) : Shape X := by
  have := h.dropLast
  simpa using this

/-! ## C92 -/

/-- `File.expand_path(t)` is the canonical text of what `t` names, seen from the working directory; with a second argument,
seen from what that names.  For texts without `~`. -/
theorem C92_expand_partial (cwd home : List Name) (t : Text) (dir : Option Text) (ht : ['~'] ∉ names t)
    (hd : ∀ d, dir = some d → ['~'] ∉ names d) :
    expand_path cwd home t dir = absolute (place (match dir with | none => cwd | some d => place cwd d) t) := by
  have key : ∀ {t : Text}, ['~'] ∉ names t → ∀ dir, (string_to_path t).foldl (walkH home) dir = place dir t := by
    intro t ht dir
    have hc : ∀ n, Comp.normal n ∈ components t → n ≠ ['~'] := fun n hn e => ht (e ▸ normal_components hn)
    rw [string_to_path, (stp_walk (Ok := (· ≠ ['~'])) (fun d n h => walkH_back home d n h) (shape_components t) hc).2 dir,
      walkH_walk home hc, walk_components]
  cases dir with
  | none => simp only [expand_path, expand_fold, text_root, key ht]
  | some d =>
    simp only [expand_path, expand_fold, text_root]
    rw [push_fold (walkH home) (fun _ _ => rfl) (fun _ => rfl), key ht, key (hd d rfl)]

example : ['~'] ∉ names "../b/./c".toList ∧
    expand_path ["home".toList, "u".toList] ["home".toList, "u".toList] "../b/./c".toList none = "/home/b/c".toList := by
  decide +kernel

theorem names_proper {t : Text} {n : Name} (h : n ∈ names t) (h1 : n ≠ ['.']) (h2 : n ≠ ['.', '.']) : Proper n :=
  ⟨(mem_names h).1, h1, h2, (mem_names h).2⟩

theorem walkH_proper {home : List Name} (hh : ∀ n ∈ home, Proper n) : ∀ {cs : List Comp} {dir : List Name},
    (∀ n, Comp.normal n ∈ cs → Proper n) → (∀ n ∈ dir, Proper n) → ∀ n ∈ cs.foldl (walkH home) dir, Proper n
  | [], _, _, hd => hd
  | c :: cs, dir, hc, hd => by
    show ∀ n ∈ cs.foldl (walkH home) (walkH home dir c), Proper n
    refine walkH_proper (dir := walkH home dir c) hh (fun n hn => hc n (by simp [hn])) ?_
    cases c with
    | root => simp [walkH, walk]
    | cur => exact hd
    | parent => exact fun n hn => hd n (List.dropLast_subset _ hn)
    | normal m =>
      simp only [walkH]
      split
      · exact hh
      · intro n hn
        rcases List.mem_append.1 hn with hn | hn
        · exact hd n hn
        · simp at hn; exact hn ▸ hc m (by simp)

theorem normal_stp {t : Text} {n : Name} (h : Comp.normal n ∈ string_to_path t) : Proper n := by
  have := (stp_walk (f := walk) (Ok := fun _ => True) (fun d n _ => walk_back d n) (shape_components t) (fun _ _ => trivial)).1
  change Shape (string_to_path t) at this
  revert h this
  cases string_to_path t with
  | nil => simp
  | cons c cs =>
    intro h hs
    rcases List.mem_cons.1 h with e | h
    · rcases hs.1 with e' | e' | hi
      · rw [← e] at e'; cases e'
      · rw [← e] at e'; cases e'
      · rw [← e] at hi; exact hi
    · exact hs.2 _ h

/-- For every text, whatever is in it: the result is the canonical text of some place, absolute, without `.`, `..` or empty
parts. -/
theorem C92_expand_canonical {cwd home : List Name} (hc : ∀ n ∈ cwd, Proper n) (hh : ∀ n ∈ home, Proper n) (t : Text)
    (dir : Option Text) : ∃ p, (∀ n ∈ p, Proper n) ∧ expand_path cwd home t dir = absolute p := by
  cases dir with
  | none =>
    exact ⟨_, walkH_proper hh (fun n hn => normal_stp (t := t) hn) hc, by simp only [expand_path, expand_fold, text_root]⟩
  | some d =>
    refine ⟨_, walkH_proper hh (fun n hn => ?_) hc, by simp only [expand_path, expand_fold, text_root]; rfl⟩
    unfold PathBuf.push at hn
    split at hn
    · exact normal_stp hn
    · rename_i q e
      split at hn
      · exact normal_stp hn
      · rcases List.mem_append.1 hn with hn | hn
        · exact normal_stp hn
        · exact normal_stp (t := t) (by rw [e]; simp [hn])
    · rcases List.mem_append.1 hn with hn | hn <;> exact normal_stp hn

theorem go_proper : ∀ {ns dir : List Name}, (∀ n ∈ ns, Proper n) → ns.foldl go dir = dir ++ ns
  | [], _, _ => by simp
  | n :: ns, dir, h => by
    have := h n (by simp)
    rw [List.foldl_cons, go, if_neg this.2.1, if_neg this.2.2.1, go_proper fun m hm => h m (by simp [hm])]
    simp

/-- A canonical text is left as it is, from every directory, unless it has a `~` in it. -/
theorem C92_expand_fixed_partial (cwd home : List Name) {p : List Name} (hp : ∀ n ∈ p, Proper n ∧ n ≠ ['~']) (dir : Option Text)
    (hd : ∀ d, dir = some d → ['~'] ∉ names d) : expand_path cwd home (absolute p) dir = absolute p := by
  have hn : names (absolute p) = p := names_absolute fun n hn => ⟨(hp n hn).1.1, (hp n hn).1.2.2.2⟩
  rw [C92_expand_partial _ _ _ _ (by rw [hn]; exact fun h => (hp _ h).2 rfl) hd, place, hn]
  rw [show isAbsolute (absolute p) = true from rfl, go_proper fun n h => (hp n h).1]
  simp

example : expand_path [] [] "/usr/lib".toList none = "/usr/lib".toList := by decide +kernel

theorem tilde : ∀ {ns : List Name} {q : List Comp}, (∀ c ∈ q, ∃ n, c = .normal n) → Inside q.length ns → (∀ n ∈ ns, n ≠ []) →
    ((ns.filter (· ≠ ['.'])).map fun p => if p = ['.', '.'] then Comp.parent else .normal p).foldl pathStep (.normal ['~'] :: q) =
    .normal ['~'] :: ((ns.filter (· ≠ ['.'])).map fun p => if p = ['.', '.'] then Comp.parent else .normal p).foldl pathStep q
  | [], _, _, _, _ => rfl
  | n :: ns, q, hq, hi, hn => by
    have hns : ∀ m ∈ ns, m ≠ [] := fun m hm => hn m (by simp [hm])
    rw [Inside] at hi
    by_cases h1 : n = ['.']
    · subst h1
      rw [if_pos rfl] at hi
      simpa using tilde hq hi hns
    · rw [if_neg h1] at hi
      by_cases h2 : n = ['.', '.']
      · subst h2
        rw [if_pos rfl] at hi
        rcases List.eq_nil_or_concat q with rfl | ⟨q', c, rfl⟩
        · exact absurd hi.1 (by simp)
        · obtain ⟨m, rfl⟩ := hq c (by simp)
          have e1 : pathStep (q' ++ [.normal m]) .parent = q' := by
            rw [pathStep, if_pos ⟨rfl, by simp [fileName_snoc]⟩, pop_normal]
          have e2 : pathStep (.normal ['~'] :: (q' ++ [.normal m])) .parent = .normal ['~'] :: q' := by
            have := fileName_snoc (.normal ['~'] :: q') m
            rw [List.cons_append] at this
            rw [pathStep, if_pos ⟨rfl, by rw [this]; rfl⟩]
            exact pop_normal (.normal ['~'] :: q') m
          have hi' : Inside q'.length ns := by simpa using hi.2
          have := tilde (q := q') (fun c hc => hq c (by simp [hc])) hi' hns
          simp [e1, e2] at this ⊢
          exact this
      · rw [if_neg h2] at hi
        have := tilde (ns := ns) (q := q ++ [.normal n]) (by
          intro c hc
          rcases List.mem_append.1 hc with hc | hc
          · exact hq c hc
          · simp at hc; exact ⟨n, hc⟩) (by simpa using hi) hns
        simp [h1, h2, pathStep, PathBuf.push] at this ⊢
        exact this

/-- `~` at the start of a path is the home directory, for paths that do not leave it. -/
theorem C92_expand_home_partial (cwd home : List Name) {t : Text} {ns : List Name} (ha : isAbsolute t = false)
    (ht : names t = ['~'] :: ns) (hi : Inside 0 ns) (hn : ['~'] ∉ ns) : expand_path cwd home t none = absolute (ns.foldl go home) := by
  have hp : (pieces t).head? ≠ some ['.'] := by
    intro h
    cases hq : pieces t with
    | nil => rw [hq] at h; cases h
    | cons p ps =>
      rw [hq] at h; cases h
      rw [names, hq] at ht
      simp at ht
  have e : components t = .normal ['~'] :: ((ns.filter (· ≠ ['.'])).map fun p => if p = ['.', '.'] then Comp.parent else .normal p) := by
    have e' : ((pieces t).filter fun p => p ≠ [] ∧ p ≠ ['.']) = (names t).filter (· ≠ ['.']) := by
      rw [names, List.filter_filter]
      congr 1
      funext p
      simp [Bool.and_comm]
    rw [components, e', ht, ha]
    simp [hp]
  have hmem : ∀ n ∈ ns, n ≠ [] := fun n h => (mem_names (t := t) (by rw [ht]; simp [h])).1
  have hsh := shape_components t
  rw [e] at hsh
  have hok : ∀ n, Comp.normal n ∈ ((ns.filter (· ≠ ['.'])).map fun p => if p = ['.', '.'] then Comp.parent else .normal p) → n ≠ ['~'] := by
    intro n h hn'
    obtain ⟨p, hp, e⟩ := List.mem_map.1 h
    split at e
    · cases e
    · cases e; exact hn (hn' ▸ (List.mem_filter.1 hp).1)
  have hsh' : Shape ((ns.filter (· ≠ ['.'])).map fun p => if p = ['.', '.'] then Comp.parent else .normal p) := by
    revert hsh
    generalize ((ns.filter (· ≠ ['.'])).map fun p => if p = ['.', '.'] then Comp.parent else .normal p) = l
    intro hsh
    cases l with
    | nil => trivial
    | cons c cs => exact ⟨.inr (.inr (hsh.2 c (by simp))), fun d hd => hsh.2 d (by simp [hd])⟩
  simp only [expand_path, expand_fold, text_root]
  congr 1
  rw [string_to_path, e, List.foldl_cons, show pathStep [] (.normal ['~']) = [.normal ['~']] from rfl,
    tilde (by simp) (by simpa using hi) hmem, List.foldl_cons]
  rw [(stp_walk (f := walkH home) (Ok := (· ≠ ['~'])) (fun d n h => walkH_back home d n h) hsh' hok).2, walkH_walk home hok]
  have hf : ∀ dir, ((ns.filter (· ≠ ['.'])).map fun p => if p = ['.', '.'] then Comp.parent else .normal p).foldl walk dir = ns.foldl go dir := by
    intro dir
    have := walk_filter ns dir
    have h0 : ns.filter (· ≠ []) = ns := List.filter_eq_self.2 fun n h => by simpa using hmem n h
    rw [h0] at this
    rw [← this]
    congr 2
    apply List.filter_congr
    intro n h
    simp [hmem n h]
  rw [hf]
  rfl

example : expand_path [] ["home".toList, "u".toList] "~/a/../b".toList none = "/home/u/b".toList ∧
    names "~/a/../b".toList = ['~'] :: ["a".toList, "..".toList, "b".toList] := by decide +kernel

/-- `File.basename` is the last name of the path, if that is not `.` or `..`. -/
theorem C92_basename_partial {t : Text} {ns : List Name} {n : Name} (h : names t = ns ++ [n]) (h1 : n ≠ ['.']) (h2 : n ≠ ['.', '.']) :
    basename t = some n := by
  obtain ⟨X, e, _⟩ := components_last h h1 h2
  rw [basename, stp_last e, fileName_snoc]

/-- `File.dirname` names the directory that the file is in, from wherever it is seen. -/
theorem C92_dirname_partial {t : Text} {ns : List Name} {n : Name} (h : names t = ns ++ [n]) (h1 : n ≠ ['.']) (h2 : n ≠ ['.', '.'])
    (cwd : List Name) : place cwd t = place cwd (dirname t) ++ [n] := by
  obtain ⟨X, e, _⟩ := components_last h h1 h2
  have hs := shape_components t
  rw [e] at hs
  obtain ⟨g1, g2⟩ := stp_walk (f := walk) (Ok := fun _ => True) (fun d n _ => walk_back d n) hs.init (fun _ _ => trivial)
  have hd : dirname t = PathBuf.text (X.foldl pathStep []) := by
    rw [dirname, stp_last e]
    simp [PathBuf.parent]
  rw [hd, place_text g1, g2, ← walk_components, e, List.foldl_append]
  rfl

theorem names_joinStep (p s : Text) : names (joinStep p s) = names p ++ names s ∧
    isAbsolute (joinStep p s) = isAbsolute (p ++ s) := by
  by_cases hp : p = []
  · subst hp; simp [joinStep, names_nil]
  · have hne : ∀ {p : Text} (r : Text), p ≠ [] → isAbsolute (p ++ r) = isAbsolute p := by
      intro p r h
      cases p with
      | nil => exact absurd rfl h
      | cons c p => rfl
    have hs : names s = names (if s.head? = some '/' then s.tail else s) := by
      cases s with
      | nil => rfl
      | cons c s =>
        by_cases hc : c = '/'
        · subst hc
          have := names_slash [] s
          simpa [names_nil] using this
        · simp [hc]
    by_cases hl : p.getLast? = some '/'
    · obtain ⟨q, rfl⟩ := List.getLast?_eq_some_iff.1 hl
      have e : joinStep (q ++ ['/']) s = q ++ '/' :: (if s.head? = some '/' then s.tail else s) := by
        simp [joinStep]
      rw [e]
      refine ⟨?_, ?_⟩
      · rw [names_slash, hs, names_slash q []]; simp [names_nil]
      · have := hne (p := q ++ ['/']) (if s.head? = some '/' then s.tail else s) (by simp)
        rw [List.append_assoc] at this
        exact this.trans (hne s (by simp)).symm
    · have e : joinStep p s = p ++ '/' :: (if s.head? = some '/' then s.tail else s) := by
        simp [joinStep, hp, hl]
      rw [e, hne _ hp, hne _ hp]
      exact ⟨by rw [names_slash, hs], rfl⟩

mutual
theorem names_flatten (path : Text) : ∀ a : Arg, names (flatten path a) = names path ++ (a.texts.map names).flatten ∧
    isAbsolute (flatten path a) = isAbsolute (path ++ a.texts.flatten)
  | .str s => by
    have := names_joinStep path s
    simpa [flatten, Arg.texts] using this
  | .arr as => by
    have := names_join path as
    simpa [flatten, Arg.texts] using this
theorem names_join (path : Text) : ∀ as : Args, names (join path as) = names path ++ (as.texts.map names).flatten ∧
    isAbsolute (join path as) = isAbsolute (path ++ as.texts.flatten)
  | .nil => by simp [join, Args.texts]
  | .cons a as => by
    have h1 := names_flatten path a
    have h2 := names_join (flatten path a) as
    rw [join]
    refine ⟨by rw [h2.1, h1.1]; simp [Args.texts], ?_⟩
    rw [h2.2]
    have key : ∀ (x y z : Text), isAbsolute x = isAbsolute y → (x = [] ↔ y = []) → isAbsolute (x ++ z) = isAbsolute (y ++ z) := by
      intro x y z e hn
      cases x with
      | nil => rw [hn.1 rfl]
      | cons c x =>
        cases y with
        | nil => exact absurd (hn.2 rfl) (by simp)
        | cons d y => exact e
    have hnil := flatten_nil path a
    rw [key _ _ _ h1.2 hnil]
    simp [Args.texts]
theorem flatten_nil (path : Text) : ∀ a : Arg, flatten path a = [] ↔ path ++ a.texts.flatten = []
  | .str s => by
    simp only [flatten, Arg.texts, joinStep]
    by_cases hp : path = []
    · subst hp; simp
    · by_cases hl : path.getLast? = some '/' <;> simp [hp, hl]
  | .arr as => by simpa [flatten, Arg.texts] using join_nil path as
theorem join_nil (path : Text) : ∀ as : Args, join path as = [] ↔ path ++ as.texts.flatten = []
  | .nil => by simp [join, Args.texts]
  | .cons a as => by
    rw [join, join_nil _ as]
    have := flatten_nil path a
    simp only [List.append_eq_nil_iff] at this ⊢
    simp only [Args.texts, List.flatten_append, List.append_eq_nil_iff, this]
    exact and_assoc
end

/-- `File.join`: the names of the arguments, in their order, however nested; absolute if the first argument that is not empty
is. -/
theorem C92_join (as : Args) : names (join [] as) = (as.texts.map names).flatten ∧
    isAbsolute (join [] as) = isAbsolute as.texts.flatten := by
  have := names_join [] as
  simpa [names_nil] using this

/-- One slash where two arguments meet, whether they bring one or not. -/
theorem C92_join_slash {a b : Text} (ha : a ≠ []) (ha' : a.getLast? ≠ some '/') (hb : b.head? ≠ some '/') (s s' : Text)
    (hs : s = [] ∨ s = ['/']) (hs' : s' = [] ∨ s' = ['/']) :
    join [] (.cons (.str (a ++ s)) (.cons (.str (s' ++ b)) .nil)) = a ++ '/' :: b := by
  rcases hs with rfl | rfl <;> rcases hs' with rfl | rfl <;> simp [join, flatten, joinStep, ha, ha', hb]

example : join [] (.cons (.arr (.cons (.str "a/".toList) (.cons (.str "/b".toList) .nil))) (.cons (.str "c".toList) .nil)) =
    "a/b/c".toList := by decide +kernel

/-- `File.join(File.dirname(t), File.basename(t))` names what `t` names. -/
theorem C92_round_trip_partial {t : Text} {ns : List Name} {n : Name} (h : names t = ns ++ [n]) (h1 : n ≠ ['.'])
    (h2 : n ≠ ['.', '.']) (cwd : List Name) :
    basename t = some n ∧ place cwd (join [] (.cons (.str (dirname t)) (.cons (.str n) .nil))) = place cwd t := by
  refine ⟨C92_basename_partial h h1 h2, ?_⟩
  have hn := mem_names (t := t) (n := n) (by rw [h]; simp)
  have hj := C92_join (.cons (.str (dirname t)) (.cons (.str n) .nil))
  have hd := C92_dirname_partial h h1 h2 cwd
  have hnn := names_noslash hn.2 hn.1
  have hna : isAbsolute n = false := by
    cases n with
    | nil => rfl
    | cons c n =>
      have : c ≠ '/' := fun e => hn.2 (by simp [e])
      simp [isAbsolute, this]
  have ha : isAbsolute (dirname t ++ n) = isAbsolute (dirname t) := by
    cases dirname t with
    | nil => simpa [isAbsolute] using hna
    | cons c d => rfl
  simp only [Args.texts, Arg.texts, List.cons_append, List.nil_append, List.map_cons, List.map_nil, List.flatten_cons,
    List.flatten_nil, List.append_nil, hnn, ha] at hj
  rw [place, hj.1, hj.2, List.foldl_append, hd, place]
  simp [go, h1, h2]

example : names "/usr/lib/x.rb".toList = ["usr".toList, "lib".toList] ++ ["x.rb".toList] ∧
    dirname "/usr/lib/x.rb".toList = "/usr/lib".toList ∧ basename "/usr/lib/x.rb".toList = some "x.rb".toList := by decide +kernel

theorem first_dot : ∀ {l : List Char}, '.' ∈ l → ∃ a b, l.takeWhile (· ≠ '.') = a ∧ l.dropWhile (· ≠ '.') = '.' :: b ∧ '.' ∉ a ∧ l = a ++ '.' :: b
  | c :: l, h => by
    by_cases hc : c = '.'
    · subst hc; exact ⟨[], l, by simp⟩
    · obtain ⟨a, b, h1, h2, h3, h4⟩ := first_dot (l := l) (by simpa [Ne.symm hc] using h)
      refine ⟨c :: a, b, ?_, ?_, by simp [h3, Ne.symm hc], by rw [h4]; rfl⟩
      · simpa [hc] using h1
      · simpa [hc] using h2

/-- `File.extname` is the end of the base name from its last dot on, if there is something before the dot, else empty. -/
theorem C92_extname (t : Text) :
    (basename t = none → extname t = []) ∧
    (∀ n, basename t = some n →
      (∃ stem, n = stem ++ extname t ∧ (extname t ≠ [] → stem ≠ [] ∧ ∃ e, extname t = '.' :: e ∧ '.' ∉ e)) ∧
      (extname t = [] → ∀ a b, n = a ++ '.' :: b → a = [])) := by
  refine ⟨fun h => by rw [basename] at h; rw [extname, h], fun n h => ?_⟩
  rw [basename] at h
  rw [extname, h]
  simp only [rsplit]
  by_cases hd : '.' ∈ n
  · rw [if_pos hd]
    have hs : n = (n.reverse.dropWhile (· ≠ '.')).tail.reverse ++ '.' :: (n.reverse.takeWhile (· ≠ '.')).reverse ∧
        '.' ∉ (n.reverse.takeWhile (· ≠ '.')).reverse := by
      obtain ⟨a, b, h1, h2, h3, h4⟩ := first_dot (l := n.reverse) (by simpa using hd)
      rw [h1, h2]
      refine ⟨?_, by simpa using h3⟩
      have := congrArg List.reverse h4
      simpa using this
    generalize (n.reverse.dropWhile (· ≠ '.')).tail.reverse = before at hs
    generalize (n.reverse.takeWhile (· ≠ '.')).reverse = after at hs
    obtain ⟨hs, ha⟩ := hs
    by_cases hb : before = []
    · rw [if_pos hb]
      refine ⟨⟨n, by simp, by simp⟩, fun _ a b e => ?_⟩
      subst hb
      rw [hs] at e
      cases a with
      | nil => rfl
      | cons c a =>
        simp only [List.nil_append, List.cons_append, List.cons.injEq] at e
        exact absurd (by rw [e.2]; simp) ha
    · rw [if_neg hb]
      exact ⟨⟨before, hs, fun _ => ⟨hb, after, rfl, ha⟩⟩, by simp⟩
  · rw [if_neg hd]
    exact ⟨⟨n, by simp, by simp⟩, fun _ a b e => absurd (by rw [e]; simp) hd⟩

example : extname "a/x.tar.gz".toList = ".gz".toList ∧ extname "/.profile".toList = [] := by decide +kernel

/-- Violation: `~` is the home directory wherever it stands in the path. -/
theorem C92_tilde_fails :
    expand_path ["w".toList] ["h".toList] "a/~".toList none = "/h".toList ∧
    absolute (place ["w".toList] "a/~".toList) = "/w/a/~".toList := by decide +kernel

/-- Violation: `~/..` is the working directory. -/
theorem C92_home_parent_fails :
    expand_path ["w".toList] ["h".toList, "u".toList] "~/../x".toList none = "/w/x".toList ∧
    absolute (["..".toList, "x".toList].foldl go ["h".toList, "u".toList]) = "/h/x".toList := by decide +kernel

/-- Violations: `File.basename` of `/`, of `a/..` and of `a/.` is nil, nil and `a`. -/
theorem C92_basename_fails : basename "/".toList = none ∧ basename "a/..".toList = none ∧
    basename "a/.".toList = some "a".toList := by decide +kernel

/-- Violations: `File.dirname` of `a` and of `/` is empty (`.` and `/` in Ruby), `File.join("", "a")` is `a` (`/a` in Ruby). -/
theorem C92_dirname_fails : dirname "a".toList = [] ∧ dirname "/".toList = [] ∧
    join [] (.cons (.str []) (.cons (.str "a".toList) .nil)) = "a".toList := by decide +kernel

end Verif.File
