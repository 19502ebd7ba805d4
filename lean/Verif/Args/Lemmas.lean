import Verif.Args.Spec
/-! # Parameter lists: lemmas about parsing and about the slots written -/
namespace Verif.Args

theorem insertNew_ok {lv : Lvars} {n : Nat} (h : n ∉ lv.table) :
    lv.insertNew n = some ({ lv with table := lv.table ++ [n] }, lv.table.length) := by
  simp [Lvars.insertNew, h]

theorem parse_req (req : List Nat) (args : List ParamKind) (lv : Lvars) (tail : List Item)
    (h : (lv.table ++ req).Nodup) :
    parseParams KRequired args lv (req.map .ident ++ tail) =
      parseParams KRequired (args ++ req.map .param) { lv with table := lv.table ++ req } tail := by
  induction req generalizing args lv with
  | nil => simp
  | cons n req ih =>
    have hn : n ∉ lv.table := by
      intro hm
      exact (List.nodup_append.mp h).2.2 n hm n (by simp) rfl
    simp only [List.map_cons, List.cons_append, parseParams, ↓reduceIte, insertNew_ok hn]
    rw [ih _ _ (by simpa using h)]
    simp

theorem parse_opt (opt : List Nat) (st : Nat) (hst : st = KRequired ∨ st = KOptional) (args : List ParamKind)
    (lv : Lvars) (tail : List Item) (h : (lv.table ++ opt).Nodup) :
    parseParams st args lv (opt.map .opt ++ tail) =
      parseParams (if opt = [] then st else KOptional) (args ++ opt.map .optional)
        { lv with table := lv.table ++ opt } tail := by
  induction opt generalizing args lv st with
  | nil => simp
  | cons n opt ih =>
    have hn : n ∉ lv.table := by
      intro hm
      exact (List.nodup_append.mp h).2.2 n hm n (by simp) rfl
    have : st = KRequired ∨ st = KOptional := hst
    simp only [List.map_cons, List.cons_append, parseParams, if_pos this, insertNew_ok hn]
    rw [ih _ (Or.inr rfl) _ _ (by simpa using h)]
    simp

theorem parse_post (post : List Nat) (st : Nat) (hst : st = KOptional ∨ st = KRest ∨ st = KPostReq)
    (args : List ParamKind) (lv : Lvars) (tail : List Item) (h : (lv.table ++ post).Nodup) :
    parseParams st args lv (post.map .ident ++ tail) =
      parseParams (if post = [] then st else KPostReq) (args ++ post.map .post)
        { lv with table := lv.table ++ post } tail := by
  induction post generalizing args lv st with
  | nil => simp
  | cons n post ih =>
    have hn : n ∉ lv.table := by
      intro hm
      exact (List.nodup_append.mp h).2.2 n hm n (by simp) rfl
    have h0 : ¬ st = KRequired := by rcases hst with rfl | rfl | rfl <;> decide
    have h1 : st = KPostReq ∨ st = KOptional ∨ st = KRest := by
      rcases hst with rfl | rfl | rfl <;> decide
    simp only [List.map_cons, List.cons_append, parseParams, if_neg h0, if_pos h1, insertNew_ok hn]
    rw [ih _ (Or.inr (Or.inr rfl)) _ _ (by simpa using h)]
    simp

theorem parse_kw (kw : List (Nat × Bool)) (st : Nat) (hst : st ≤ 4) (args : List ParamKind)
    (lv : Lvars) (tail : List Item) (h : (lv.table ++ kw.map (·.1)).Nodup) :
    parseParams st args lv (kw.map (fun p => .kw p.1 p.2) ++ tail) =
      parseParams (if kw = [] then st else KKeyWord)
        (args ++ kw.map (fun p => .keyword p.1 p.2))
        { lv with table := lv.table ++ kw.map (·.1)
                  kw := lv.kw ++ (List.range kw.length).map (lv.table.length + ·) } tail := by
  induction kw generalizing args lv st with
  | nil => simp
  | cons n kw ih =>
    have hn : n.1 ∉ lv.table := by
      intro hm
      exact (List.nodup_append.mp h).2.2 n.1 hm n.1 (by simp) rfl
    have h0 : ¬ st = KKWRest := by unfold KKWRest; omega
    simp only [List.map_cons, List.cons_append, parseParams, if_neg h0, insertNew_ok hn]
    rw [ih _ (by decide) _ _ (by simpa using h)]
    simp only [List.append_assoc, List.cons_append, List.nil_append, ite_self, List.length_append,
      List.length_cons, List.length_nil, Nat.zero_add, reduceCtorEq, ↓reduceIte, List.range_succ_eq_map,
      List.map_cons, Nat.add_zero, List.map_map]
    congr 3
    simp only [List.cons.injEq, true_and]
    apply List.map_congr_left
    intro a _
    simp; omega

/-- the number of slots a rest parameter occupies -/
def Sig.restLen (s : Sig) : Nat := (s.rest.join).toList.length

/-- the slot of the first keyword parameter -/
def Sig.kwBase (s : Sig) : Nat := s.req.length + s.opt.length + s.restLen + s.post.length

/-- the parameters as the parser hands them to the code generator -/
def Sig.kinds (s : Sig) : List ParamKind :=
  s.req.map .param ++ s.opt.map .optional
    ++ (s.rest.map (fun | some n => ParamKind.rest n | none => .restDiscard)).toList
    ++ s.post.map .post ++ s.kw.map (fun p => .keyword p.1 p.2)
    ++ (s.kwrest.map ParamKind.kwrest).toList ++ (s.block.map ParamKind.block).toList

/-- the local variables as the parser hands them to the code generator -/
def Sig.lvars (s : Sig) : Lvars :=
  { table := s.names
    kw := (List.range s.kw.length).map (s.kwBase + ·)
    kwrest := s.kwrest.map (fun _ => s.kwBase + s.kw.length)
    block := s.block.map (fun _ => s.kwBase + s.kw.length + s.kwrest.toList.length)
    delegateParam := none }

theorem nodup_prefix {a b : List Nat} (h : (a ++ b).Nodup) : a.Nodup :=
  (List.nodup_append.mp h).1

theorem not_mem_of_nodup {a : List Nat} {n : Nat} {b : List Nat} (h : (a ++ n :: b).Nodup) :
    n ∉ a := by
  intro hm
  exact (List.nodup_append.mp h).2.2 n hm n (by simp) rfl

theorem parse_sig (s : Sig) (h : s.Ok) :
    parseParams KRequired [] {} s.items = some (s.kinds, s.lvars) := by
  obtain ⟨hn, hp⟩ := h
  obtain ⟨req, opt, rest, post, kw, kwrest, block⟩ := s
  simp only [Sig.items, Sig.names, List.append_assoc] at hn hp ⊢
  -- prefixes of the list of names
  have n1 : ([] ++ req).Nodup := by simpa using nodup_prefix hn
  have n2 : (req ++ opt).Nodup := by
    rw [← List.append_assoc] at hn; exact nodup_prefix hn
  rw [parse_req _ _ _ _ n1]
  rw [parse_opt _ _ (Or.inl rfl) _ _ _ (by simpa using n2)]
  simp only [List.nil_append]
  -- after the rest parameter
  have hrest : ∀ tail, parseParams (if opt = [] then KRequired else KOptional)
      (req.map .param ++ opt.map .optional)
      { kw := [], table := req ++ opt, kwrest := none, block := none, delegateParam := none }
      ((rest.map Item.star).toList ++ tail) =
      parseParams (if rest = none then (if opt = [] then KRequired else KOptional) else KRest)
      (req.map .param ++ opt.map .optional
        ++ (rest.map (fun | some n => ParamKind.rest n | none => .restDiscard)).toList)
      { kw := [], table := req ++ opt ++ (rest.join).toList, kwrest := none, block := none,
        delegateParam := none } tail := by
    intro tail
    have hlt : ¬ (if opt = [] then KRequired else KOptional) ≥ KRest := by
      split <;> decide
    match rest, hn with
    | none, _ => simp
    | some none, _ => simp [parseParams, hlt]
    | some (some n), hn =>
      have : n ∉ req ++ opt := by
        have hn' : (req ++ opt ++ n :: (post ++ (kw.map (·.1) ++ (kwrest.toList ++ block.toList)))).Nodup := by
          simpa using hn
        exact not_mem_of_nodup hn'
      simp only [Option.map_some, Option.toList_some, List.cons_append, List.nil_append, parseParams,
        if_neg hlt, insertNew_ok (lv := { kw := [], table := req ++ opt, kwrest := none, block := none, delegateParam := none }) this]
      simp
  rw [hrest]
  generalize hst : (if rest = none then (if opt = [] then KRequired else KOptional) else KRest) = st
  have n3 : (req ++ opt ++ rest.join.toList ++ post).Nodup := by
    have : (req ++ opt ++ rest.join.toList ++ post ++ (kw.map (·.1) ++ (kwrest.toList ++ block.toList))).Nodup := by
      simpa using hn
    exact nodup_prefix this
  have hst4 : st ≤ 2 := by
    subst hst; split <;> (try split) <;> decide
  have hpost : ∀ (args : List ParamKind) (tail : List Item), parseParams st args
      { kw := [], table := req ++ opt ++ (rest.join).toList, kwrest := none, block := none,
        delegateParam := none } (post.map .ident ++ tail) =
      parseParams (if post = [] then st else KPostReq) (args ++ post.map .post)
      { kw := [], table := req ++ opt ++ (rest.join).toList ++ post, kwrest := none, block := none,
        delegateParam := none } tail := by
    intro args tail
    by_cases hpe : post = []
    · subst hpe; simp
    · have hst' : st = KOptional ∨ st = KRest ∨ st = KPostReq := by
        subst hst
        by_cases hr : rest = none
        · have ho : opt ≠ [] := fun ho => hpe (hp ho hr)
          simp [hr, ho]
        · simp [hr]
      exact parse_post post st hst' args _ tail n3
  rw [hpost]
  generalize hst2 : (if post = [] then st else KPostReq) = st2
  have hst2le : st2 ≤ 3 := by
    subst hst2; split
    · omega
    · decide
  have n4 : (req ++ opt ++ rest.join.toList ++ post ++ kw.map (·.1)).Nodup := by
    have : (req ++ opt ++ rest.join.toList ++ post ++ kw.map (·.1) ++ (kwrest.toList ++ block.toList)).Nodup := by
      simpa using hn
    exact nodup_prefix this
  rw [parse_kw _ _ (by omega) _ _ _ n4]
  generalize hst3 : (if kw = [] then st2 else KKeyWord) = st3
  have hst3le : ¬ st3 ≥ KKWRest := by
    subst hst3; split
    · unfold KKWRest; omega
    · decide
  simp only [List.nil_append]
  match kwrest, block, hn with
  | none, none, _ =>
    simp [parseParams, Sig.kinds, Sig.lvars, Sig.names, Sig.kwBase, Sig.restLen, Nat.add_assoc]
  | none, some b, hn =>
    have hb : b ∉ req ++ opt ++ rest.join.toList ++ post ++ kw.map (·.1) := by
      apply not_mem_of_nodup (b := [])
      simpa using hn
    have hb' := insertNew_ok (lv := { kw := (List.range kw.length).map ((req ++ opt ++ rest.join.toList ++ post).length + ·), table := req ++ opt ++ rest.join.toList ++ post ++ kw.map (·.1), kwrest := none, block := none, delegateParam := none }) hb
    simp only [Option.map_none, Option.toList_none, Option.map_some, Option.toList_some,
      List.nil_append, parseParams, hb', ↓reduceIte]
    simp [Sig.kinds, Sig.lvars, Sig.names, Sig.kwBase, Sig.restLen, Nat.add_assoc]
  | some k, none, hn =>
    have hk : k ∉ req ++ opt ++ rest.join.toList ++ post ++ kw.map (·.1) := by
      apply not_mem_of_nodup (b := [])
      simpa using hn
    have hk' := insertNew_ok (lv := { kw := (List.range kw.length).map ((req ++ opt ++ rest.join.toList ++ post).length + ·), table := req ++ opt ++ rest.join.toList ++ post ++ kw.map (·.1), kwrest := none, block := none, delegateParam := none }) hk
    simp only [Option.map_none, Option.toList_none, Option.map_some, Option.toList_some,
      List.cons_append, List.nil_append, parseParams, hk', if_neg hst3le]
    simp [Sig.kinds, Sig.lvars, Sig.names, Sig.kwBase, Sig.restLen, Nat.add_assoc]
  | some k, some b, hn =>
    have hk : k ∉ req ++ opt ++ rest.join.toList ++ post ++ kw.map (·.1) := by
      apply not_mem_of_nodup (b := [b])
      simpa using hn
    have hb : b ∉ req ++ opt ++ rest.join.toList ++ post ++ kw.map (·.1) ++ [k] := by
      apply not_mem_of_nodup (b := [])
      simpa using hn
    have hk' := insertNew_ok (lv := { kw := (List.range kw.length).map ((req ++ opt ++ rest.join.toList ++ post).length + ·), table := req ++ opt ++ rest.join.toList ++ post ++ kw.map (·.1), kwrest := none, block := none, delegateParam := none }) hk
    have hb' := insertNew_ok (lv := { kw := (List.range kw.length).map ((req ++ opt ++ rest.join.toList ++ post).length + ·), table := req ++ opt ++ rest.join.toList ++ post ++ kw.map (·.1) ++ [k], kwrest := some (req ++ opt ++ rest.join.toList ++ post ++ kw.map (·.1)).length, block := none, delegateParam := none }) hb
    simp only [Option.map_some, Option.toList_some,
      List.cons_append, List.nil_append, parseParams, hk', hb', if_neg hst3le, ↓reduceIte]
    simp [Sig.kinds, Sig.lvars, Sig.names, Sig.kwBase, Sig.restLen, Nat.add_assoc]

/-! ## The parameters as the code generator records them -/

theorem gen_req (l : List Nat) (p : Params) (i : Nat) (ks : List ParamKind) :
    genParams p i (l.map .param ++ ks) =
      genParams { p with req := p.req + l.length } (i + l.length) ks := by
  induction l generalizing p i with
  | nil => simp
  | cons n l ih => simp [genParams, genParam, ih, Nat.add_assoc, Nat.add_comm 1]

theorem gen_opt (l : List Nat) (p : Params) (i : Nat) (ks : List ParamKind) :
    genParams p i (l.map .optional ++ ks) =
      genParams { p with opt := p.opt + l.length } (i + l.length) ks := by
  induction l generalizing p i with
  | nil => simp
  | cons n l ih => simp [genParams, genParam, ih, Nat.add_assoc, Nat.add_comm 1]

theorem gen_post (l : List Nat) (p : Params) (i : Nat) (ks : List ParamKind) :
    genParams p i (l.map .post ++ ks) =
      genParams { p with post := p.post + l.length } (i + l.length) ks := by
  induction l generalizing p i with
  | nil => simp
  | cons n l ih => simp [genParams, genParam, ih, Nat.add_assoc, Nat.add_comm 1]

/-- the keyword table: names with the slots from `i` on (latest first) -/
def kwTable (acc : List (Nat × Nat)) (i : Nat) : List (Nat × Bool) → List (Nat × Nat)
  | [] => acc
  | k :: ks => kwTable ((k.1, i) :: acc) (i + 1) ks

theorem gen_kw (l : List (Nat × Bool)) (p : Params) (i : Nat) (ks : List ParamKind) :
    genParams p i (l.map (fun q => .keyword q.1 q.2) ++ ks) =
      genParams { p with keyword := kwTable p.keyword i l } (i + l.length) ks := by
  induction l generalizing p i with
  | nil => simp [kwTable]
  | cons n l ih => simp [genParams, genParam, ih, kwTable, Nat.add_assoc, Nat.add_comm 1]

/-- the position in the parameter list of the first keyword parameter -/
def Sig.kwPos (s : Sig) : Nat :=
  s.req.length + s.opt.length + s.rest.toList.length + s.post.length

/-- the parameters as the code generator records them -/
def Sig.params (s : Sig) : Params :=
  { req := s.req.length, opt := s.opt.length, rest := s.rest.map Option.isSome
    post := s.post.length, block := s.block.isSome
    keyword := kwTable [] s.kwPos s.kw
    kwrest := s.kwrest.isSome, delegate := none }

theorem gen_sig (s : Sig) : genParams {} 0 s.kinds = s.params := by
  obtain ⟨req, opt, rest, post, kw, kwrest, block⟩ := s
  simp only [Sig.kinds, List.append_assoc]
  rw [gen_req, gen_opt]
  have hr : ∀ p i ks, p.rest = none → genParams p i ((rest.map (fun | some n => ParamKind.rest n | none => .restDiscard)).toList ++ ks) =
      genParams { p with rest := rest.map Option.isSome } (i + rest.toList.length) ks := by
    intro p i ks hp
    match rest with
    | none => cases p; cases hp; simp
    | some none => simp [genParams, genParam]
    | some (some n) => simp [genParams, genParam]
  rw [hr _ _ _ rfl, gen_post, gen_kw]
  cases kwrest <;> cases block <;>
    simp [genParams, genParam, Sig.params, Sig.kwPos]

theorem define_sig (s : Sig) (h : s.Ok) (locals : List Nat) :
    define s.items locals =
      some (mkCode s.params { s.lvars with table := s.names ++ locals }) := by
  simp [define, parse_sig s h, gen_sig, Sig.lvars]

end Verif.Args
