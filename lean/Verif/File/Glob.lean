import Verif.File.Paths
import Mathlib.Tactic.Tauto
/-! # C93: `Dir.glob`

builtin/dir.rs.  The tree of directories is a parameter; symbolic links, unreadable directories and names that are not UTF-8 are
left out. -/
namespace Verif.File.Glob

abbrev Name := List Char

/-! ## Model -/

mutual
/-- A file or a directory with its entries, in the order in which `read_dir` gives them. -/
inductive Tree
  | file
  | dir (es : Entries)
inductive Entries
  | nil
  | cons (n : Name) (t : Tree) (es : Entries)
end

/-- What the characters of a pattern become in a regular expression (builtin/dir.rs:56-90). -/
inductive Item
  /-- the character, or `\.` -/
  | lit (c : Char)
  /-- `.` -/
  | any
  /-- `.*` -/
  | star
  /-- `(?:[^\.].*)?` -/
  | first
  deriving DecidableEq

/-- One element of `glob`: a regular expression between `^` and `$`, or `None` for `**/`. -/
inductive Level
  | re (items : List Item)
  | deep
  deriving DecidableEq

/-- Characters that are special in regular expressions. -/
def special : List Char := "\\^$+()[]{}|".toList

/-- The loop over the pattern (builtin/dir.rs:54-97); `buf`: `charbuf` without the `^`.  `none`: a character that is special in
regular expressions and not treated here goes into the expression; not modelled. -/
def translate : List Char → List Item → Option (List Level)
  | [], buf => some [.re buf]
  | c :: p, buf =>
    if c = '?' then translate p (buf ++ [.any])
    else if c = '*' then
      if buf = [] then
        match p with
        | '*' :: '/' :: p => (translate p []).map (.deep :: ·)
        | '*' :: p => translate p [.first]
        | p => translate p [.first]
      else translate p (buf ++ [.star])
    else if c = '/' then (translate p []).map (.re buf :: ·)
    else if c ∈ special then none
    else translate p (buf ++ [.lit c])

/-- `.*` and the rest `k`; `.` matches everything but a line feed. -/
def starMatch (k : Name → Bool) : Name → Bool
  | [] => k []
  | d :: s => k (d :: s) || (d != '\n' && starMatch k s)

/-- Does the regular expression match the whole of the text. -/
def reMatch : List Item → Name → Bool
  | [], s => s.isEmpty
  | .lit c :: is, s =>
    match s with
    | [] => false
    | d :: s => c == d && reMatch is s
  | .any :: is, s =>
    match s with
    | [] => false
    | d :: s => d != '\n' && reMatch is s
  | .star :: is, s => starMatch (reMatch is) s
  | .first :: is, s => reMatch is s ||
    match s with
    | [] => false
    | d :: s => d != '.' && starMatch (reMatch is) s

def Tree.isDir : Tree → Bool
  | .file => false
  | .dir _ => true

def hidden (n : Name) : Bool := n.head? = some '.'

mutual
/-- The recursive calls of `traverse_dir`, for a directory. -/
def inside : Tree → List Name → List Level → List (List Name)
  | .file, _, _ => []
  | .dir es, path, gs => traverse es path gs

/-- `traverse_dir` (builtin/dir.rs:121-187), with what is left of `glob` from `level` on; the set `matches` as a list. -/
def traverse : Entries → List Name → List Level → List (List Name)
  | _, path, [] => [path]
  | .nil, _, _ :: _ => []
  | .cons n t es, path, g :: gs =>
    (match g with
    | .re r =>
      if reMatch r n then
        if t.isDir then inside t (path ++ [n]) gs else if gs = [] then [path ++ [n]] else []
      else []
    | .deep =>
      let next := match gs with
        | .re r :: _ => reMatch r n
        | _ => false
      if t.isDir then
        if next then inside t (path ++ [n]) gs.tail ++ (if hidden n then [] else inside t (path ++ [n]) (g :: gs))
        else if hidden n then [] else inside t (path ++ [n]) gs ++ inside t (path ++ [n]) (g :: gs)
      else if gs = [] ∨ (next = true ∧ gs.length = 1) then [path ++ [n]] else []) ++ traverse es path (g :: gs)
end

/-- `Dir.glob` (builtin/dir.rs:41-119); `root` and `cwd`: the entries of the root and of the working directory. -/
def glob (root cwd : Entries) (pattern : List Char) : Option (List Text) :=
  match pattern with
  | '/' :: p => (translate p []).map fun gs => (traverse root [] gs).map fun ns => '/' :: slashed ns
  | p => (translate p []).map fun gs => (traverse cwd [] gs).map slashed

/-! ## Specification -/

/-- A part of a pattern and a name: `?` is any character, `*` any text. -/
inductive Fn : List Char → Name → Prop
  | nil : Fn [] []
  | any {p c s} : Fn p s → Fn ('?' :: p) (c :: s)
  | skip {p s} : Fn p s → Fn ('*' :: p) s
  | star {p c s} : Fn ('*' :: p) s → Fn ('*' :: p) (c :: s)
  | lit {c p s} : c ≠ '?' → c ≠ '*' → Fn p s → Fn (c :: p) (c :: s)

/-- … but the dot of a hidden name must be written. -/
def Accepts (p : List Char) (n : Name) : Prop := Fn p n ∧ (hidden n = true → p.head? = some '.')

/-- The parts of a pattern and the names of a path; `**`, but at the end, stands for any number of directories that are not
hidden. -/
inductive Wanted : List (List Char) → List Name → Prop
  | done : Wanted [] []
  | name {p ps n ns} : (p = "**".toList → ps = []) → Accepts p n → Wanted ps ns → Wanted (p :: ps) (n :: ns)
  | zero {ps ns} : ps ≠ [] → Wanted ps ns → Wanted ("**".toList :: ps) ns
  | more {ps n ns} : ps ≠ [] → hidden n = false → Wanted ("**".toList :: ps) ns → Wanted ("**".toList :: ps) (n :: ns)

/-- An entry of a directory. -/
inductive Has : Entries → Name → Tree → Prop
  | here {n t es} : Has (.cons n t es) n t
  | there {m u n t es} : Has es n t → Has (.cons m u es) n t

/-- The paths that exist, from a directory. -/
inductive Exists_ : Entries → List Name → Prop
  | entry {es n t} : Has es n t → Exists_ es [n]
  | inside {es n es' ns} : Has es n (.dir es') → Exists_ es' ns → Exists_ es (n :: ns)

/-- A part of a pattern without the star or stars at its start, up to two. -/
def unstarred : List Char → List Char
  | '*' :: '*' :: p => p
  | '*' :: p => p
  | p => p

/-- What is left out, for a part of the pattern and a name: line feeds, and hidden names that a part beginning with `?` or
`*` would match. -/
def Clear (p : List Char) (n : Name) : Prop :=
  '\n' ∉ n ∧ (hidden n = true → p.head? = some '?' ∨ p.head? = some '*' → ¬ Fn (unstarred p) n)

mutual
/-- All names in a tree. -/
def Tree.names : Tree → List Name
  | .file => []
  | .dir es => es.names
def Entries.names : Entries → List Name
  | .nil => []
  | .cons n t es => n :: (t.names ++ es.names)
end

/-- No two `**` one after the other. -/
def Single : List (List Char) → Prop
  | p :: q :: ps => ¬ (p = "**".toList ∧ q = "**".toList ∧ ps ≠ []) ∧ Single (q :: ps)
  | _ => True

/-! ## Helpers: parts of patterns -/

/-- What a part becomes after its first characters. -/
def items : List Char → List Item
  | [] => []
  | c :: p => (if c = '?' then .any else if c = '*' then .star else .lit c) :: items p

/-- What a part becomes. -/
def headItems : List Char → List Item
  | '*' :: '*' :: p => .first :: items p
  | '*' :: p => .first :: items p
  | p => items p

def levels : List (List Char) → List Level
  | [] => []
  | [p] => [.re (headItems p)]
  | p :: q :: ps => (if p = "**".toList then .deep else .re (headItems p)) :: levels (q :: ps)

theorem levels_cons {p : List Char} (h : p ≠ "**".toList) (ps : List (List Char)) : levels (p :: ps) = .re (headItems p) :: levels ps := by
  cases ps with
  | nil => rfl
  | cons q ps => simp only [levels, if_neg h]

theorem headItems_other {c : Char} (h : c ≠ '*') (p : List Char) : headItems (c :: p) = items (c :: p) := by
  unfold headItems
  split
  · rename_i e; cases e; exact absurd rfl h
  · rename_i e; cases e; exact absurd rfl h
  · rfl

theorem translate_cons (c : Char) (p : List Char) {buf : List Item} (h : c = '*' → buf ≠ []) : translate (c :: p) buf =
    if c = '?' then translate p (buf ++ [.any])
    else if c = '*' then translate p (buf ++ [.star])
    else if c = '/' then (translate p []).map (.re buf :: ·)
    else if c ∈ special then none
    else translate p (buf ++ [.lit c]) := by
  rw [translate.eq_def]
  dsimp only
  by_cases h1 : c = '*'
  · rw [if_pos h1, if_pos h1, if_neg (h h1)]
  · rw [if_neg h1, if_neg h1]

theorem translate_deep (p : List Char) : translate ('*' :: '*' :: '/' :: p) [] = (translate p []).map (.deep :: ·) := by
  rw [translate.eq_def]
  dsimp only
  rw [if_neg (by decide), if_pos rfl, if_pos rfl]
  rfl

theorem translate_two {p : List Char} (h : ∀ q, p ≠ '/' :: q) : translate ('*' :: '*' :: p) [] = translate p [.first] := by
  rw [translate.eq_def]
  dsimp only
  rw [if_neg (by decide), if_pos rfl, if_pos rfl]
  split
  · rename_i e; cases e; exact absurd rfl (h _)
  · rename_i e; cases e; rfl
  · rename_i h2; exact absurd rfl (h2 _)

theorem translate_one {p : List Char} (h : ∀ q, p ≠ '*' :: q) : translate ('*' :: p) [] = translate p [.first] := by
  rw [translate.eq_def]
  dsimp only
  rw [if_neg (by decide), if_pos rfl, if_pos rfl]
  split
  · rename_i e; exact absurd rfl (h _)
  · rename_i e; exact absurd rfl (h _)
  · rfl

theorem translate_pieces : ∀ (k : Nat) (p : List Char), p.length ≤ k → (∀ c ∈ p, c ∉ special) →
    translate p [] = some (levels (pieces p)) ∧
    ∀ buf h r, buf ≠ [] → pieces p = h :: r → translate p buf = some (.re (buf ++ items h) :: levels r)
  | _, [], _, _ => by
    refine ⟨by simp [translate, pieces, levels, headItems, items], ?_⟩
    intro buf h r _ e
    simp [pieces] at e
    obtain ⟨rfl, rfl⟩ := e
    simp [translate, items, levels]
  | k + 1, c :: p, hk, hs => by
    have hs' : ∀ c ∈ p, c ∉ special := fun d hd => hs d (by simp [hd])
    obtain ⟨ihA, ihB⟩ := translate_pieces k p (by simp at hk; omega) hs'
    have hc := hs c (by simp)
    by_cases h1 : c = '/'
    · subst h1
      have e : pieces ('/' :: p) = [] :: pieces p := by simp [pieces]
      refine ⟨?_, ?_⟩
      · rw [e, levels_cons (by decide)]
        rw [translate_cons _ _ (fun e => absurd e (by decide))]
        simp [ihA, headItems, items]
      · intro buf h r hb e'
        rw [e] at e'
        cases e'
        rw [translate_cons _ _ (fun e => absurd e (by decide))]
        simp [ihA, items]
    · obtain ⟨h, r, e1, e2⟩ := pieces_cons h1 p
      have hB : ∀ buf h' r', buf ≠ [] → pieces (c :: p) = h' :: r' → translate (c :: p) buf = some (.re (buf ++ items h') :: levels r') := by
        intro buf h' r' hb e'
        rw [e2] at e'
        cases e'
        rw [translate_cons _ _ (fun _ => hb)]
        have hne : ∀ x : Item, buf ++ [x] ≠ [] := by simp
        by_cases h2 : c = '?'
        · subst h2
          simp [ihB _ _ _ (hne .any) e1, items]
        · by_cases h3 : c = '*'
          · subst h3
            simp [ihB _ _ _ (hne .star) e1, items, hb]
          · simp [ihB _ _ _ (hne (.lit c)) e1, items, h1, h2, h3, hc]
      refine ⟨?_, hB⟩
      rw [e2]
      by_cases h3 : c = '*'
      · subst h3
        by_cases hx : ∃ q, p = '*' :: q
        · obtain ⟨q, rfl⟩ := hx
          by_cases hy : ∃ q', q = '/' :: q'
          · obtain ⟨q, rfl⟩ := hy
            have hq : pieces ('*' :: '/' :: q) = ['*'] :: pieces q := by simp [pieces]
            rw [hq] at e1
            cases e1
            have := (translate_pieces k q (by simp at hk; omega) (fun d hd => hs d (by simp [hd]))).1
            rw [translate_deep, this]
            cases hp : pieces q with
            | nil => exact absurd hp (pieces_ne_nil q)
            | cons a b => rfl
          · obtain ⟨h', r', g1, g2⟩ := pieces_cons (c := '*') (by decide) q
            rw [g2] at e1
            cases e1
            have := (translate_pieces k q (by simp at hk; omega) (fun d hd => hs d (by simp [hd]))).2 [.first] _ _ (by simp) g1
            rw [translate_two (fun q' e => hy ⟨q', e⟩), this]
            by_cases hh : h' = []
            · subst hh
              have hq : q = [] := by
                cases q with
                | nil => rfl
                | cons d q =>
                  by_cases hd : d = '/'
                  · subst hd; exact absurd ⟨q, rfl⟩ hy
                  · obtain ⟨a, b, _, g4⟩ := pieces_cons hd q
                    rw [g4] at g1; cases g1
              subst hq
              simp [pieces] at g1
              subst g1
              rfl
            · rw [levels_cons (by simpa using hh)]
              rfl
        · have := ihB [.first] h r (by simp) e1
          rw [translate_one (fun q e => hx ⟨q, e⟩), this]
          have hh : ∀ t, h ≠ '*' :: t := by
            rintro t rfl
            cases p with
            | nil => simp [pieces] at e1
            | cons d p =>
              by_cases hd : d = '/'
              · subst hd; simp [pieces] at e1
              · obtain ⟨a, b, _, g4⟩ := pieces_cons hd p
                rw [g4] at e1; cases e1
                exact absurd ⟨p, rfl⟩ hx
          rw [levels_cons (by intro e; simp at e; exact hh [] e)]
          have : headItems ('*' :: h) = .first :: items h := by
            unfold headItems
            split
            · rename_i e; cases e; exact absurd rfl (hh _)
            · rename_i e; cases e; rfl
            · rename_i e; exact absurd rfl (e h)
          rw [this]; rfl
      · have hl : levels ((c :: h) :: r) = .re (items (c :: h)) :: levels r := by
          rw [levels_cons (by intro e; simp at e; exact h3 e.1), headItems_other h3]
        rw [hl, translate_cons _ _ (fun e => absurd e h3)]
        by_cases h2 : c = '?'
        · subst h2
          simp [ihB [.any] _ _ (by simp) e1, items]
        · simp [ihB [.lit c] _ _ (by simp) e1, items, h1, h2, h3, hc]

theorem fn_star {q : List Char} {s : Name} : Fn ('*' :: q) s ↔ Fn q s ∨ ∃ d t, s = d :: t ∧ Fn ('*' :: q) t := by
  constructor
  · intro h
    cases h with
    | skip h => exact .inl h
    | star h => exact .inr ⟨_, _, rfl, h⟩
    | lit h1 h2 _ => exact absurd rfl h2
  · rintro (h | ⟨d, t, rfl, h⟩)
    · exact .skip h
    · exact .star h

theorem fn_star_star {q : List Char} : ∀ {s : Name}, Fn ('*' :: '*' :: q) s ↔ Fn ('*' :: q) s
  | [] => by rw [fn_star]; simp
  | d :: s => by
    rw [fn_star]
    constructor
    · rintro (h | ⟨_, _, e, h⟩)
      · exact h
      · cases e; exact .star (fn_star_star.1 h)
    · exact .inl

theorem starMatch_fn {k : Name → Bool} {q : List Char} (hk : ∀ s, '\n' ∉ s → (k s = true ↔ Fn q s)) :
    ∀ {s : Name}, '\n' ∉ s → (starMatch k s = true ↔ Fn ('*' :: q) s)
  | [], h => by rw [starMatch, hk _ h, fn_star]; simp
  | d :: s, h => by
    have hd : d ≠ '\n' := fun e => h (by simp [e])
    have hs : '\n' ∉ s := fun e => h (by simp [e])
    rw [starMatch, fn_star, Bool.or_eq_true, hk _ h, Bool.and_eq_true, starMatch_fn hk hs]
    simp only [bne_iff_ne, ne_eq, hd, not_false_eq_true, true_and]
    exact or_congr_right ⟨fun h => ⟨d, s, rfl, h⟩, fun ⟨_, _, e, h⟩ => by cases e; exact h⟩

theorem items_fn : ∀ {q : List Char} {s : Name}, '\n' ∉ s → (reMatch (items q) s = true ↔ Fn q s)
  | [], s, _ => by
    simp only [items, reMatch, List.isEmpty_iff]
    exact ⟨fun e => e ▸ .nil, fun h => by cases h; rfl⟩
  | c :: q, s, h => by
    rw [items]
    by_cases h1 : c = '?'
    · subst h1
      simp only [if_pos]
      rw [reMatch.eq_def]
      dsimp only
      cases s with
      | nil => exact ⟨by simp, fun h => by cases h⟩
      | cons d s =>
        have hd : d ≠ '\n' := fun e => h (by simp [e])
        have hs : '\n' ∉ s := fun e => h (by simp [e])
        simp only [Bool.and_eq_true, items_fn hs, bne_iff_ne]
        constructor
        · exact fun h => .any h.2
        · intro h
          cases h with
          | any h => exact ⟨hd, h⟩
          | lit h1 _ _ => exact absurd rfl h1
    · rw [if_neg h1]
      by_cases h2 : c = '*'
      · subst h2
        simp only [if_pos]
        rw [reMatch.eq_def]
        exact starMatch_fn (fun s hs => items_fn hs) h
      · rw [if_neg h2, reMatch.eq_def]
        dsimp only
        cases s with
        | nil => exact ⟨by simp, fun h => by cases h; exact absurd rfl h2⟩
        | cons d s =>
          have hs : '\n' ∉ s := fun e => h (by simp [e])
          simp only [Bool.and_eq_true, items_fn hs, beq_iff_eq]
          constructor
          · rintro ⟨rfl, h'⟩; exact .lit h1 h2 h'
          · intro h
            cases h with
            | any h => exact absurd rfl h1
            | skip h => exact absurd rfl h2
            | star h => exact absurd rfl h2
            | lit _ _ h => exact ⟨rfl, h⟩

theorem head_accepts {p : List Char} {n : Name} (h : Clear p n) : reMatch (headItems p) n = true ↔ Accepts p n := by
  obtain ⟨hn, hh⟩ := h
  by_cases hs : p.head? = some '*'
  · have hq : headItems p = .first :: items (unstarred p) ∧ (Fn p n ↔ Fn ('*' :: unstarred p) n) := by
      cases p with
      | nil => cases hs
      | cons c p =>
        cases hs
        cases p with
        | nil => exact ⟨rfl, .rfl⟩
        | cons d p =>
          by_cases hd : d = '*'
          · subst hd; exact ⟨rfl, fn_star_star⟩
          · have e1 : unstarred ('*' :: d :: p) = d :: p := by
              unfold unstarred
              split
              · rename_i e; cases e; exact absurd rfl hd
              · rename_i e; cases e; rfl
              · rename_i e; exact absurd rfl (e _)
            have e2 : headItems ('*' :: d :: p) = .first :: items (d :: p) := by
              unfold headItems
              split
              · rename_i e; cases e; exact absurd rfl hd
              · rename_i e; cases e; rfl
              · rename_i e; exact absurd rfl (e _)
            rw [e1, e2]; exact ⟨rfl, .rfl⟩
    have hnot : ¬ p.head? = some '.' := by rw [hs]; simp
    rw [hq.1, reMatch.eq_def]
    dsimp only
    rw [Accepts, hq.2, fn_star, Bool.or_eq_true, items_fn hn]
    cases hid : hidden n with
    | true =>
      have hf := hh hid (.inr hs)
      refine ⟨?_, fun h => absurd (h.2 rfl) hnot⟩
      rintro (h | h)
      · exact absurd h hf
      · cases n with
        | nil => simp at h
        | cons d s =>
          simp [hidden] at hid
          simp [hid] at h
    | false =>
      simp only [Bool.false_eq_true, false_implies, and_true]
      refine or_congr_right ?_
      cases n with
      | nil => simp
      | cons d s =>
        have hd : d ≠ '.' := by simpa [hidden] using hid
        have hs' : '\n' ∉ s := fun e => hn (by simp [e])
        simp only [Bool.and_eq_true, bne_iff_ne, ne_eq, hd, not_false_eq_true, true_and, starMatch_fn (fun s hs => items_fn hs) hs']
        exact ⟨fun h => ⟨d, s, rfl, h⟩, fun ⟨_, _, e, h⟩ => by cases e; exact h⟩
  · have hq : headItems p = items p := by
      cases p with
      | nil => rfl
      | cons c p => exact headItems_other (fun e => hs (by simp [e])) p
    rw [hq, items_fn hn, Accepts]
    refine ⟨fun h => ⟨h, fun hid => ?_⟩, fun h => h.1⟩
    cases h with
    | nil => cases hid
    | any h' =>
      have hf := hh hid (.inl rfl)
      exact absurd (.any h') hf
    | skip _ => exact absurd rfl hs
    | star _ => exact absurd rfl hs
    | lit _ _ _ => simpa [hidden] using hid

/-! ## Helpers: trees -/

/-- Elements of `glob` and names. -/
inductive WL : List Level → List Name → Prop
  | done : WL [] []
  | name {r gs n ns} : reMatch r n = true → WL gs ns → WL (.re r :: gs) (n :: ns)
  | zero {gs ns} : WL gs ns → WL (.deep :: gs) ns
  | more {gs n ns} : hidden n = false → WL (.deep :: gs) ns → WL (.deep :: gs) (n :: ns)

def GoodL : List Level → Prop
  | [] => True
  | .re _ :: gs => GoodL gs
  | .deep :: gs => (∃ r gs', gs = .re r :: gs') ∧ GoodL gs

theorem wl_nil {gs : List Level} (h : WL gs []) (hg : GoodL gs) : gs = [] := by
  cases h with
  | done => rfl
  | zero h =>
    obtain ⟨⟨r, gs', rfl⟩, _⟩ := hg
    cases h

/-- The paths from an entry on. -/
def ExT (t : Tree) (ns : List Name) : Prop := ns = [] ∨ ∃ es, t = .dir es ∧ Exists_ es ns

theorem exists_cons {n : Name} {t : Tree} {es : Entries} {ns : List Name} :
    Exists_ (.cons n t es) ns ↔ (∃ ns', ns = n :: ns' ∧ ExT t ns') ∨ Exists_ es ns := by
  constructor
  · intro h
    cases h with
    | entry h =>
      cases h with
      | here => exact .inl ⟨[], rfl, .inl rfl⟩
      | there h => exact .inr (.entry h)
    | inside h h' =>
      cases h with
      | here => exact .inl ⟨_, rfl, .inr ⟨_, rfl, h'⟩⟩
      | there h => exact .inr (.inside h h')
  · rintro (⟨ns', rfl, rfl | ⟨es', rfl, h⟩⟩ | h)
    · exact .entry .here
    · exact .inside .here h
    · cases h with
      | entry h => exact .entry (.there h)
      | inside h h' => exact .inside (.there h) h'

theorem not_exists_nil {es : Entries} : ¬ Exists_ es [] := by intro h; cases h

mutual
theorem inside_iff : ∀ (t : Tree) (path : List Name) (gs : List Level) (x : List Name), GoodL gs → t.isDir = true →
    (x ∈ inside t path gs ↔ ∃ ns, x = path ++ ns ∧ ExT t ns ∧ WL gs ns)
  | .file, _, _, _, _, h => by cases h
  | .dir es, path, [], x, _, _ => by
    rw [inside]
    have : traverse es path [] = [path] := by cases es <;> rw [traverse]
    rw [this]
    constructor
    · intro h
      simp at h
      exact ⟨[], by simp [h], .inl rfl, .done⟩
    · rintro ⟨ns, rfl, _, h⟩
      cases h
      simp
  | .dir es, path, g :: gs, x, hg, _ => by
    rw [inside, traverse_iff es path g gs x hg]
    constructor
    · rintro ⟨ns, e, h1, h2⟩
      exact ⟨ns, e, .inr ⟨es, rfl, h1⟩, h2⟩
    · rintro ⟨ns, e, rfl | ⟨es', e', h1⟩, h2⟩
      · exact absurd (wl_nil h2 hg) (by simp)
      · cases e'; exact ⟨ns, e, h1, h2⟩
theorem traverse_iff : ∀ (es : Entries) (path : List Name) (g : Level) (gs : List Level) (x : List Name), GoodL (g :: gs) →
    (x ∈ traverse es path (g :: gs) ↔ ∃ ns, x = path ++ ns ∧ Exists_ es ns ∧ WL (g :: gs) ns)
  | .nil, path, g, gs, x, _ => by
    rw [traverse]
    constructor
    · simp
    · rintro ⟨ns, _, h, _⟩
      cases h with
      | entry h => cases h
      | inside h _ => cases h
  | .cons n t es, path, g, gs, x, hg => by
    have hi := inside_iff t (path ++ [n])
    have hrest := traverse_iff es path g gs x hg
    have split : (∃ ns, x = path ++ ns ∧ Exists_ (.cons n t es) ns ∧ WL (g :: gs) ns) ↔
        (∃ ns, x = (path ++ [n]) ++ ns ∧ ExT t ns ∧ WL (g :: gs) (n :: ns)) ∨ ∃ ns, x = path ++ ns ∧ Exists_ es ns ∧ WL (g :: gs) ns := by
      constructor
      · rintro ⟨ns, e, h, hw⟩
        rcases exists_cons.1 h with ⟨ns', rfl, h'⟩ | h
        · exact .inl ⟨ns', by simp [e], h', hw⟩
        · exact .inr ⟨ns, e, h, hw⟩
      · rintro (⟨ns, e, h, hw⟩ | ⟨ns, e, h, hw⟩)
        · exact ⟨n :: ns, by simp [e], exists_cons.2 (.inl ⟨ns, rfl, h⟩), hw⟩
        · exact ⟨ns, e, exists_cons.2 (.inr h), hw⟩
    have noDir : t.isDir = false → ∀ ns, ExT t ns ↔ ns = [] := by
      intro h ns
      cases t with
      | dir es => cases h
      | file =>
        constructor
        · rintro (h | ⟨_, h, _⟩)
          · exact h
          · cases h
        · exact .inl
    rw [traverse.eq_def]
    dsimp only
    rw [List.mem_append, hrest, split]
    refine or_congr_left ?_
    cases g with
    | re r =>
      have hw : ∀ ns, WL (.re r :: gs) (n :: ns) ↔ reMatch r n = true ∧ WL gs ns := by
        intro ns
        constructor
        · intro h; cases h with | name a b => exact ⟨a, b⟩
        · rintro ⟨a, b⟩; exact .name a b
      simp only [hw]
      by_cases hm : reMatch r n = true
      · rw [if_pos hm]
        cases hd : t.isDir with
        | true =>
          rw [if_pos rfl, hi gs x hg hd]
          simp [hm]
        | false =>
          simp only [Bool.false_eq_true, if_false, noDir hd, hm, true_and]
          constructor
          · intro h
            split at h
            · rename_i e
              subst e
              simp at h
              exact ⟨[], by simp [h], rfl, .done⟩
            · simp at h
          · rintro ⟨ns, e, rfl, h⟩
            rw [if_pos (wl_nil h hg)]
            simpa using e
      · rw [if_neg hm]
        simp [hm]
    | deep =>
      obtain ⟨⟨r, gs', rfl⟩, hg'⟩ := id hg
      have hw : ∀ ns, WL (.deep :: .re r :: gs') (n :: ns) ↔
          (reMatch r n = true ∧ WL gs' ns) ∨ (hidden n = false ∧ WL (.deep :: .re r :: gs') ns) := by
        intro ns
        constructor
        · intro h
          cases h with
          | zero h => cases h with | name a b => exact .inl ⟨a, b⟩
          | more a b => exact .inr ⟨a, b⟩
        · rintro (⟨a, b⟩ | ⟨a, b⟩)
          · exact .zero (.name a b)
          · exact .more a b
      simp only [hw]
      cases hd : t.isDir with
      | true =>
        simp only [if_true]
        by_cases hm : reMatch r n = true
        · rw [if_pos hm, List.mem_append, List.tail_cons, hi gs' x hg' hd]
          cases hid : hidden n with
          | true => simp [hm]
          | false =>
            simp only [Bool.false_eq_true, if_false, hi _ x hg hd, hm, true_and]
            constructor
            · rintro (⟨ns, a, b, c⟩ | ⟨ns, a, b, c⟩)
              · exact ⟨ns, a, b, .inl c⟩
              · exact ⟨ns, a, b, .inr c⟩
            · rintro ⟨ns, a, b, c | c⟩
              · exact .inl ⟨ns, a, b, c⟩
              · exact .inr ⟨ns, a, b, c⟩
        · rw [if_neg hm]
          cases hid : hidden n with
          | true => simp [hm]
          | false =>
            simp only [Bool.false_eq_true, if_false, List.mem_append, hi _ x hg hd, hi _ x hg.2 hd, hm, false_and, false_or, true_and]
            constructor
            · rintro (⟨ns, a, b, c⟩ | h)
              · exact ⟨ns, a, b, .zero c⟩
              · exact h
            · exact .inr
      | false =>
        simp only [Bool.false_eq_true, if_false, noDir hd]
        constructor
        · intro h
          split at h
          · rename_i e
            rcases e with e | ⟨e1, e2⟩
            · cases e
            · have : gs' = [] := by simpa using e2
              subst this
              simp at h
              exact ⟨[], by simp [h], rfl, .inl ⟨e1, .done⟩⟩
          · simp at h
        · rintro ⟨ns, e, rfl, ⟨a, b⟩ | ⟨_, b⟩⟩
          · rw [wl_nil b hg', if_pos (.inr ⟨a, rfl⟩)]
            simpa using e
          · exact absurd (wl_nil b hg) (by simp)
end

theorem good_levels : ∀ {ps : List (List Char)}, Single ps → GoodL (levels ps)
  | [], _ => trivial
  | [p], _ => trivial
  | p :: q :: ps, h => by
    have ih := good_levels (ps := q :: ps) h.2
    rw [levels]
    split
    · rename_i e
      refine ⟨?_, ih⟩
      cases ps with
      | nil => exact ⟨_, _, rfl⟩
      | cons r ps =>
        rw [levels, if_neg (fun e' => h.1 ⟨e, e', by simp⟩)]
        exact ⟨_, _, rfl⟩
    · exact ih

theorem wl_wanted : ∀ {ps : List (List Char)} {ns : List Name}, (∀ p ∈ ps, ∀ n ∈ ns, Clear p n) →
    (WL (levels ps) ns ↔ Wanted ps ns)
  | [], ns, _ => ⟨fun h => by cases h; exact .done, fun h => by cases h; exact .done⟩
  | [p], ns, hc => by
    constructor
    · intro h
      cases h with
      | name a b =>
        cases b
        exact .name (fun _ => rfl) ((head_accepts (hc _ (by simp) _ (by simp))).1 a) .done
    · intro h
      cases h with
      | name _ a b =>
        cases b
        exact .name ((head_accepts (hc _ (by simp) _ (by simp))).2 a) .done
      | zero h _ => exact absurd rfl h
      | more h _ _ => exact absurd rfl h
  | p :: q :: ps, ns, hc => by
    have ih : ∀ {ns'}, (∀ n ∈ ns', n ∈ ns) → (WL (levels (q :: ps)) ns' ↔ Wanted (q :: ps) ns') := fun hsub =>
      wl_wanted (ps := q :: ps) fun p' hp' n hn => hc p' (List.mem_cons_of_mem _ hp') n (hsub n hn)
    by_cases hp : p = "**".toList
    · subst hp
      have e : levels ("**".toList :: q :: ps) = .deep :: levels (q :: ps) := by rw [levels, if_pos rfl]
      rw [e]
      induction ns with
      | nil =>
        constructor
        · intro h
          cases h with
          | zero h => exact .zero (by simp) ((ih (by simp)).1 h)
        · intro h
          cases h with
          | zero _ h => exact .zero ((ih (by simp)).2 h)
      | cons n ns ihn =>
        have ihn := ihn (fun hsub => ih fun m hm => List.mem_cons_of_mem _ (hsub m hm))
          (fun p hp m hm => hc p hp m (List.mem_cons_of_mem _ hm))
        constructor
        · intro h
          cases h with
          | zero h => exact .zero (by simp) ((ih (fun _ h => h)).1 h)
          | more a h => exact .more (by simp) a (ihn.1 h)
        · intro h
          cases h with
          | name hl _ _ => exact absurd (hl rfl) (by simp)
          | zero _ h => exact .zero ((ih (fun _ h => h)).2 h)
          | more _ a h => exact .more a (ihn.2 h)
    · rw [levels_cons hp]
      constructor
      · intro h
        cases h with
        | name a b =>
          exact .name (fun e => absurd e hp) ((head_accepts (hc _ (by simp) _ (by simp))).1 a) ((ih (by simp +contextual)).1 b)
      · intro h
        cases h with
        | name _ a b => exact .name ((head_accepts (hc _ (by simp) _ (by simp))).2 a) ((ih (by simp +contextual)).2 b)
        | zero _ _ => exact absurd rfl hp
        | more _ _ _ => exact absurd rfl hp

theorem has_names {es : Entries} {n : Name} {t : Tree} (h : Has es n t) : n ∈ es.names ∧ ∀ m ∈ t.names, m ∈ es.names := by
  induction h with
  | here => rw [Entries.names]; simp +contextual
  | there _ ih => rw [Entries.names]; simp [ih.1]; exact fun m hm => .inr (.inr (ih.2 m hm))

theorem exists_names {es : Entries} {ns : List Name} (h : Exists_ es ns) : ∀ n ∈ ns, n ∈ es.names := by
  induction h with
  | entry h => simpa using (has_names h).1
  | inside h _ ih =>
    intro m hm
    rcases List.mem_cons.1 hm with rfl | hm
    · exact (has_names h).1
    · have := ih m hm
      exact (has_names h).2 m (by rw [Tree.names]; exact this)

theorem traverse_wanted {es : Entries} {p : List Char} (hs : Single (pieces p)) (hc : ∀ q ∈ pieces p, ∀ n ∈ es.names, Clear q n)
    (x : List Name) : x ∈ traverse es [] (levels (pieces p)) ↔ Exists_ es x ∧ Wanted (pieces p) x := by
  have hg := good_levels hs
  have hne : levels (pieces p) ≠ [] := by
    cases hp : pieces p with
    | nil => exact absurd hp (pieces_ne_nil p)
    | cons a b => cases b <;> simp [levels]
  cases hl : levels (pieces p) with
  | nil => exact absurd hl hne
  | cons g gs =>
    rw [hl] at hg
    rw [traverse_iff es [] g gs x hg]
    constructor
    · rintro ⟨ns, rfl, h1, h2⟩
      rw [← hl] at h2
      exact ⟨h1, (wl_wanted fun q hq n hn => hc q hq n (exists_names h1 n hn)).1 h2⟩
    · rintro ⟨h1, h2⟩
      refine ⟨x, rfl, h1, ?_⟩
      rw [← hl]
      exact (wl_wanted fun q hq n hn => hc q hq n (exists_names h1 n hn)).2 h2

/-! ## C93 -/

/-- `Dir.glob` of a relative pattern finds exactly the paths below the working directory that the pattern asks for. -/
theorem C93_glob_partial (root cwd : Entries) {p : List Char} (hp : p.head? ≠ some '/') (hx : ∀ c ∈ p, c ∉ special)
    (hs : Single (pieces p)) (hc : ∀ q ∈ pieces p, ∀ n ∈ cwd.names, Clear q n) :
    ∃ found, glob root cwd p = some found ∧
      ∀ t, t ∈ found ↔ ∃ ns, Exists_ cwd ns ∧ Wanted (pieces p) ns ∧ t = slashed ns := by
  refine ⟨(traverse cwd [] (levels (pieces p))).map slashed, ?_, ?_⟩
  · unfold glob
    split
    · rename_i q e; exact absurd rfl hp
    · rw [(translate_pieces p.length p (Nat.le_refl _) hx).1]; rfl
  · intro t
    simp only [List.mem_map, traverse_wanted hs hc]
    constructor
    · rintro ⟨ns, ⟨h1, h2⟩, rfl⟩; exact ⟨ns, h1, h2, rfl⟩
    · rintro ⟨ns, h1, h2, rfl⟩; exact ⟨ns, ⟨h1, h2⟩, rfl⟩

/-- … of a pattern that begins with a slash, below the root. -/
theorem C93_glob_absolute_partial (root cwd : Entries) {p : List Char} (hx : ∀ c ∈ p, c ∉ special)
    (hs : Single (pieces p)) (hc : ∀ q ∈ pieces p, ∀ n ∈ root.names, Clear q n) :
    ∃ found, glob root cwd ('/' :: p) = some found ∧
      ∀ t, t ∈ found ↔ ∃ ns, Exists_ root ns ∧ Wanted (pieces p) ns ∧ t = '/' :: slashed ns := by
  refine ⟨(traverse root [] (levels (pieces p))).map fun ns => '/' :: slashed ns, ?_, ?_⟩
  · simp [glob, (translate_pieces p.length p (Nat.le_refl _) hx).1]
  · intro t
    simp only [List.mem_map, traverse_wanted hs hc]
    constructor
    · rintro ⟨ns, ⟨h1, h2⟩, rfl⟩; exact ⟨ns, h1, h2, rfl⟩
    · rintro ⟨ns, h1, h2, rfl⟩; exact ⟨ns, ⟨h1, h2⟩, rfl⟩

/-- A tree: `src/a.rb`, `src/b.c`, `src/lib/a.rb`, `.git/a.rb`, `a.rb`. -/
def sample : Entries :=
  .cons "src".toList (.dir (.cons "a.rb".toList .file (.cons "b.c".toList .file
    (.cons "lib".toList (.dir (.cons "a.rb".toList .file .nil)) .nil))))
  (.cons ".git".toList (.dir (.cons "a.rb".toList .file .nil)) (.cons "a.rb".toList .file .nil))

example : ∀ q ∈ pieces "**/*.rb".toList, ∀ n ∈ sample.names, Clear q n := by
  have hl : ∀ {s : Name}, Fn ".rb".toList s → s = ".rb".toList := by
    intro s h
    have := (items_fn (q := ".rb".toList) (s := s) ?_).2 h
    · revert this
      cases s with
      | nil => decide
      | cons a s => cases s with
        | nil => simp [items, reMatch]
        | cons b s => cases s with
          | nil => simp [items, reMatch]
          | cons c s => simp [items, reMatch]; intro h1 h2 h3 h4; simp [← h1, ← h2, ← h3, h4]
    · cases h with | lit _ _ h => cases h with | lit _ _ h => cases h with | lit _ _ h => cases h; decide
  intro q hq n hn
  have hq' : q = "**".toList ∨ q = "*.rb".toList := by simpa [pieces] using hq
  have hn' : n = "src".toList ∨ n = "a.rb".toList ∨ n = "b.c".toList ∨ n = "lib".toList ∨ n = ".git".toList := by
    revert hn; simp [sample, Entries.names, Tree.names]; tauto
  refine ⟨by rcases hn' with rfl | rfl | rfl | rfl | rfl <;> decide, ?_⟩
  intro hid _ hf
  have hg : n = ".git".toList := by
    rcases hn' with rfl | rfl | rfl | rfl | rfl
    · exact absurd hid (by decide)
    · exact absurd hid (by decide)
    · exact absurd hid (by decide)
    · exact absurd hid (by decide)
    · rfl
  subst hg
  rcases hq' with rfl | rfl
  · have hf : Fn [] ".git".toList := hf
    cases hf
  · exact absurd (hl hf) (by decide)

example : (glob .nil sample "**/*.rb".toList).map (fun l => l.contains "src/lib/a.rb".toList && !l.contains ".git/a.rb".toList) = some true := by
  decide +kernel

/-- Violation: `*.rb` finds the hidden file `.rb`, `?rb` too. -/
theorem C93_hidden_fails :
    glob .nil (.cons ".rb".toList .file .nil) "*.rb".toList = some [".rb".toList] ∧
    glob .nil (.cons ".rb".toList .file .nil) "?rb".toList = some [".rb".toList] ∧
    ¬ Wanted [ "*.rb".toList ] [".rb".toList] ∧ ¬ Wanted [ "?rb".toList ] [".rb".toList] := by
  refine ⟨by decide +kernel, by decide +kernel, ?_, ?_⟩
  · intro h
    cases h with
    | name _ a _ => exact absurd (a.2 rfl) (by decide)
  · intro h
    cases h with
    | name _ a _ => exact absurd (a.2 rfl) (by decide)

/-- Violation: `**/**/a` does not find `a`. -/
theorem C93_deep_fails :
    glob .nil (.cons "a".toList .file .nil) "**/**/a".toList = some [] ∧
    Exists_ (.cons "a".toList .file .nil) ["a".toList] ∧ Wanted (pieces "**/**/a".toList) ["a".toList] := by
  refine ⟨by decide +kernel, .entry .here, ?_⟩
  show Wanted ["**".toList, "**".toList, "a".toList] ["a".toList]
  exact .zero (by simp) (.zero (by simp) (.name (by decide) ⟨.lit (by decide) (by decide) .nil, by decide⟩ .done))

/-- Violation: `*` does not match a line feed. -/
theorem C93_line_feed_fails : glob .nil (.cons "a\nb".toList .file .nil) "a*".toList = some [] ∧
    Wanted ["a*".toList] ["a\nb".toList] := by
  refine ⟨by decide +kernel, .name (by decide) ⟨.lit (by decide) (by decide) ?_, by decide⟩ .done⟩
  exact .star (.star (.skip .nil))

/-- Violation: the name of a directory and a slash find nothing (the directory in Ruby). -/
theorem C93_slash_fails : glob .nil (.cons "a".toList (.dir .nil) .nil) "a/".toList = some [] ∧
    glob .nil (.cons "a".toList (.dir .nil) .nil) "a".toList = some ["a".toList] := by decide +kernel

end Verif.File.Glob
