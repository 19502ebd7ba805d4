import Verif.Args.Props

/-!
# Argument forwarding (`...`) and splat arguments: theorems
-/
namespace Verif.Args

/-! ## Forwarding -/

theorem parse_idents (names : List Nat) (rest : List Item) :
    ∀ (args : List ParamKind) (lv : Lvars), (lv.table ++ names).Nodup →
      parseParams KRequired args lv (names.map Item.ident ++ rest) =
        parseParams KRequired (args ++ names.map ParamKind.param)
          { lv with table := lv.table ++ names } rest := by
  induction names with
  | nil => intro args lv _; simp
  | cons n ns ih =>
    intro args lv hnd
    have hn : n ∉ lv.table := by
      intro h
      have := List.nodup_append.mp hnd
      exact this.2.2 n h n (by simp) rfl
    simp only [List.map_cons, List.cons_append, parseParams, Lvars.insertNew, if_neg hn, if_true]
    rw [ih _ _ (by simpa using hnd)]
    simp

theorem gen_params_req (names : List Nat) (tail : List ParamKind) :
    ∀ (p : Params) (i : Nat), genParams p i (names.map ParamKind.param ++ tail) =
      genParams { p with req := p.req + names.length } (i + names.length) tail := by
  induction names with
  | nil => intro p i; rfl
  | cons n ns ih =>
    intro p i
    simp only [List.map_cons, List.cons_append, genParams, genParam, ih, List.length_cons]
    congr 1
    · congr 1; omega
    · omega

/-- The code of `def f(req…, ...)`. -/
def delegateCode (req locals : List Nat) : Code :=
  mkCode { req := req.length, delegate := some req.length }
    { table := req ++ [delegateName] ++ locals, delegateParam := some req.length }

theorem define_delegate (req locals : List Nat) (h : (req ++ [delegateName]).Nodup) :
    define (req.map Item.ident ++ [.delegate]) locals = some (delegateCode req locals) := by
  have hd : delegateName ∉ req := by
    intro hm
    exact (List.nodup_append.mp h).2.2 _ hm _ (by simp) rfl
  unfold define
  rw [parse_idents req _ _ _ (by simpa using (List.nodup_append.mp h).1)]
  simp only [parseParams, Lvars.insertNew, List.nil_append, if_neg hd, if_true, KRequired,
    show ¬ 0 > 0 from by omega, if_false]
  rw [gen_params_req]
  simp [genParams, genParam, delegateCode]

theorem fillPositional_delegate (req locals : List Nat) (Q : List Val) (hq : req.length ≤ Q.length) :
    ∃ l, fillPositional (delegateCode req locals) Q = .ok l ∧
      l.length = req.length + 1 + locals.length ∧
      (∀ i, i < req.length → l[i]? = Q[i]?) ∧
      (l[req.length]? = some (if Q.length = req.length then .nil else .array (Q.drop req.length))) ∧
      ∀ i, req.length < i → i < req.length + 1 + locals.length → l[i]? = some .nil := by
  have hlv : (delegateCode req locals).lvars = req.length + 1 + locals.length := by
    simp [delegateCode, mkCode]; omega
  have hkw : (delegateCode req locals).lvar.kw = [] := rfl
  unfold fillPositional
  rw [hkw, hlv]
  simp only [delegateCode, mkCode, reduceCtorEq, if_false, Nat.not_lt_zero, Nat.sub_zero,
    Nat.add_zero, Option.isSome_some, if_true, bind, Except.bind, clearKw, Nat.zero_ne_one]
  by_cases h : req.length < Q.length
  · simp only [if_pos h, write_ok h]
    obtain ⟨r, hr, hrl, hrg⟩ := copyWithin_ok
      (l := Q.set req.length (.array ((Q.drop req.length).take (Q.length - req.length))))
      (a := Q.length) (b := Q.length) (dest := req.length) (by omega) (by simp) (by simp; omega)
    rw [hr]
    simp only [List.length_set] at hrl
    have e : (Q.drop req.length).take (Q.length - req.length) = Q.drop req.length :=
      List.take_of_length_le (by simp)
    rw [e] at hrg
    have hsp : req.length + 1 ≤ r.length := by omega
    simp only [if_pos hsp]
    refine ⟨_, rfl, resizeTo_length _ _, ?_, ?_, ?_⟩
    · intro i hi
      rw [resizeTo_get]
      simp only [List.length_take, List.getElem?_take, hrg, List.getElem?_set]
      rw [if_pos (by omega), if_pos (by omega), if_pos (by omega), if_neg (by omega),
        if_neg (by omega)]
    · rw [resizeTo_get]
      simp only [List.length_take, List.getElem?_take, hrg, List.getElem?_set]
      rw [if_pos (by omega), if_pos (by omega), if_pos (by omega), if_neg (by omega), if_pos trivial,
        if_pos h, if_neg (by omega)]
    · intro i h1 h2
      rw [resizeTo_get]
      simp only [List.length_take]
      rw [if_pos h2, if_neg (by omega)]
  · have hQ : Q.length = req.length := by omega
    simp only [if_neg h]
    obtain ⟨r, hr, hrl, hrg⟩ := copyWithin_ok
      (l := resizeTo Q (req.length + 1 + locals.length))
      (a := Q.length) (b := Q.length) (dest := req.length) (by omega)
      (by rw [resizeTo_length]; omega) (by rw [resizeTo_length]; omega)
    rw [hr]
    rw [resizeTo_length] at hrl
    simp only [hQ, Nat.lt_irrefl, if_false]
    obtain ⟨w, hw, hwl, hwg⟩ := fill_ok (l := r) (a := req.length) (b := req.length)
      (v := .uninit) (by omega) (by omega)
    rw [hw]
    have hg : ∀ i : Nat, w[i]? = (resizeTo Q (req.length + 1 + locals.length))[i]? := by
      intro i
      rw [hwg, if_neg (by omega), hrg, if_neg (by omega)]
    refine ⟨_, rfl, by omega, ?_, ?_, ?_⟩
    · intro i hi
      rw [hg, resizeTo_get, if_pos (by omega), if_pos (by omega)]
    · rw [hg, resizeTo_get, if_pos (by omega), if_neg (by omega), if_pos trivial]
    · intro i h1 h2
      rw [hg, resizeTo_get, if_pos (by omega), if_neg (by omega)]

/-- **C38, `...`.**  A method `def f(a, b, ...)` accepts any number of arguments not smaller than the
number of its parameters before `...` (keyword arguments count as one more argument, a hash); these
are bound in order, and `g(...)` inside the method passes on exactly the remaining arguments, in order. -/
theorem C38_delegate (req locals : List Nat) (hnd : (req ++ [delegateName] ++ locals).Nodup)
    (c : Code) (hc : define (req.map Item.ident ++ [.delegate]) locals = some c)
    (args : List Val) (kw : KwArg) (blk : Option Nat) :
    let given := args ++ (kw.map (fun h => [Val.hash h])).getD []
    (given.length < req.length → callMethod c args kw blk = .error .arity) ∧
    (req.length ≤ given.length → ∃ l, callMethod c args kw blk = .ok l ∧
      delegated c l = .ok (given.drop req.length) ∧
      (∀ (i n : Nat) (v : Val), req[i]? = some n → (Holds c l n v ↔ given[i]? = some v)) ∧
      ∀ n ∈ locals, Holds c l n .nil) := by
  intro given
  rw [define_delegate req locals (List.nodup_append.mp hnd).1] at hc
  injection hc with hc
  subst hc
  have hpush : pushKw true args kw = given := by
    cases kw <;> simp [given, pushKw]
  have hcall : callMethod (delegateCode req locals) args kw blk =
      (match (if given.length < req.length then Except.error Err.arity else .ok () :
          Except Err Unit) with
        | .error e => .error e
        | .ok _ => fillPositional (delegateCode req locals) given) := by
    have hopt : (delegateCode req locals).optFlag = false := by
      simp [delegateCode, mkCode, Params.isOpt]
    have hchk : checkArity (delegateCode req locals).params kw.isSome args.length =
        if given.length < req.length then .error .arity else .ok () := by
      have hl : given.length = args.length + (if kw.isSome then 1 else 0) := by
        cases kw <;> simp [given]
      simp only [checkArity, delegateCode, mkCode, Option.isSome_none, Bool.false_eq_true, if_false,
        Option.isNone_some, Nat.add_zero, gt_iff_lt, hl]
    have hk : ((delegateCode req locals).params.keyword.isEmpty &&
        !(delegateCode req locals).params.kwrest) = true := rfl
    have hk2 : (delegateCode req locals).params.kwrest = false := rfl
    simp only [callMethod, hopt, Bool.false_eq_true, if_false, methodSlow, bind, Except.bind]
    rw [hk]
    simp only [Bool.true_and, hchk, hpush, hk2, Bool.not_true, Bool.false_and, Bool.or_false,
      Bool.false_eq_true, if_false]
    by_cases h : given.length < req.length
    · simp [h]
    · simp only [h, if_false]
      cases fillPositional (delegateCode req locals) given <;> rfl
  rw [hcall]
  refine ⟨fun h => by simp [h], fun h => ?_⟩
  simp only [Nat.not_lt.mpr h, if_false]
  obtain ⟨l, e, hlen, hreq, hdel, hloc⟩ := fillPositional_delegate req locals given h
  refine ⟨l, e, ?_, ?_, ?_⟩
  · have hd : (delegateCode req locals).params.delegate = some req.length := rfl
    simp only [delegated, hd, hdel]
    by_cases hq : given.length = req.length
    · simp [hq, List.drop_eq_nil_of_le (Nat.le_of_eq hq)]
    · simp [hq]
  · intro i n v hi
    have hil : i < req.length := (List.getElem?_eq_some_iff.mp hi).1
    have htab : (delegateCode req locals).lvar.table = req ++ [delegateName] ++ locals := rfl
    have hti : (req ++ [delegateName] ++ locals)[i]? = some n := by
      rw [List.append_assoc, List.getElem?_append_left hil]; exact hi
    constructor
    · rintro ⟨j, hj, hv⟩
      rw [htab] at hj
      have : i = j := by
        have h1 := List.getElem?_eq_some_iff.mp hti
        have h2 := List.getElem?_eq_some_iff.mp hj
        exact (hnd.getElem_inj_iff).mp (h1.2.trans h2.2.symm)
      subst this
      rw [← hreq i hil]; exact hv
    · intro hv
      exact ⟨i, hti, by rw [hreq i hil]; exact hv⟩
  · intro n hn
    obtain ⟨i, hi⟩ := List.getElem?_of_mem hn
    have hil := (List.getElem?_eq_some_iff.mp hi).1
    refine ⟨req.length + 1 + i, ?_, hloc _ (by omega) (by omega)⟩
    show (req ++ [delegateName] ++ locals)[req.length + 1 + i]? = some n
    rw [List.getElem?_append_right (by simp)]
    simpa using hi

/-- `def f(a, ...); g(...); end; f(1, 2, k: 3)` calls `g(2, {k: 3})`. -/
example : (define ([1].map Item.ident ++ [.delegate]) [2]).map
      (fun c => callMethod c [.int 1, .int 2] (some [(7, .int 3)]) none) =
      some (.ok [.int 1, .array [.int 2, .hash [(7, .int 3)]], .nil]) ∧
    (([1] : List Nat) ++ [delegateName] ++ [2]).Nodup ∧
    (define ([1].map Item.ident ++ [.delegate]) [2]).map
      (fun c => delegated c [.int 1, .array [.int 2, .hash [(7, .int 3)]], .nil]) =
      some (.ok [.int 2, .hash [(7, .int 3)]]) :=
  ⟨rfl, by decide, rfl⟩

/-! ## Splat -/

/-- the integers of `intsFrom` -/
def ints (lo : Int) : Nat → List Int
  | 0 => []
  | n + 1 => lo :: ints (lo + 1) n

theorem intsFrom_eq (n : Nat) : ∀ lo, intsFrom lo n = (ints lo n).map Val.int := by
  induction n with
  | zero => intro lo; rfl
  | succ n ih => intro lo; simp [intsFrom, ints, ih]

theorem mem_ints (n : Nat) : ∀ (lo i : Int), i ∈ ints lo n ↔ lo ≤ i ∧ i < lo + n := by
  induction n with
  | zero => intro lo i; simp [ints]
  | succ n ih => intro lo i; simp [ints, ih]; omega

theorem ints_sorted (n : Nat) : ∀ lo, (ints lo n).Pairwise (· < ·) := by
  induction n with
  | zero => intro lo; simp [ints]
  | succ n ih =>
    intro lo
    simp only [ints, List.pairwise_cons]
    refine ⟨fun i hi => ?_, ih _⟩
    have := (mem_ints n _ _).mp hi
    omega

/-- two strictly ascending lists with the same members are equal -/
theorem sorted_ext : ∀ (a b : List Int), a.Pairwise (· < ·) → b.Pairwise (· < ·) →
    (∀ i, i ∈ a ↔ i ∈ b) → a = b
  | [], [], _, _, _ => rfl
  | [], y :: ys, _, _, h => absurd ((h y).mpr (by simp)) (by simp)
  | x :: xs, [], _, _, h => absurd ((h x).mp (by simp)) (by simp)
  | x :: xs, y :: ys, ha, hb, h => by
    obtain ⟨ha1, ha2⟩ := List.pairwise_cons.mp ha
    obtain ⟨hb1, hb2⟩ := List.pairwise_cons.mp hb
    have hxy : x = y := by
      rcases List.mem_cons.mp ((h x).mp (by simp)) with e | hx
      · exact e
      · rcases List.mem_cons.mp ((h y).mpr (by simp)) with e | hy
        · exact e.symm
        · have := ha1 y hy; have := hb1 x hx; omega
    subst hxy
    rw [sorted_ext xs ys ha2 hb2 (fun i => ?_)]
    constructor
    · intro hi
      rcases List.mem_cons.mp ((h i).mp (by simp [hi])) with e | h'
      · have := ha1 i hi; omega
      · exact h'
    · intro hi
      rcases List.mem_cons.mp ((h i).mpr (by simp [hi])) with e | h'
      · have := hb1 i hi; omega
      · exact h'

theorem range_expand {lo hi : Int} {excl : Bool} {is : List Int}
    (h : ∀ i, i ∈ is ↔ lo ≤ i ∧ (if excl then i < hi else i ≤ hi)) (hs : is.Pairwise (· < ·)) :
    is.map Val.int = if hi + (if excl then 0 else 1) ≥ lo then
      intsFrom lo (hi + (if excl then 0 else 1) - lo).toNat else [] := by
  have : is = if hi + (if excl then 0 else 1) ≥ lo then
      ints lo (hi + (if excl then 0 else 1) - lo).toNat else [] := by
    apply sorted_ext
    · exact hs
    · cases excl <;> simp only [Bool.false_eq_true, if_false, if_true] <;> split <;>
        first | exact ints_sorted _ _ | exact List.Pairwise.nil
    · intro i
      rw [h]
      cases excl <;> simp only [Bool.false_eq_true, if_false, if_true] <;> split <;>
        simp only [mem_ints, List.not_mem_nil, iff_false] <;> omega
  rw [this]
  cases excl <;> simp only [Bool.false_eq_true, if_false, if_true] <;> split <;>
    simp [intsFrom_eq]

theorem spread_eq (pre post : List Val) (v : Val) (a : List Val) (ha : a ≠ []) :
    spread (pre ++ v :: post) pre.length a = .ok (pre ++ a ++ post) := by
  have hl : 0 < a.length := List.length_pos_iff.mpr ha
  unfold spread
  rw [if_neg (by omega)]
  obtain ⟨r, hr, hrl, hrg⟩ := copyWithin_ok
    (l := (pre ++ v :: post) ++ List.replicate (a.length - 1) .nil)
    (a := pre.length + 1) (b := (pre ++ v :: post).length) (dest := pre.length + a.length)
    (by simp) (by simp) (by simp; omega)
  simp only [hr, bind, Except.bind]
  simp only [List.length_append, List.length_cons, List.length_replicate] at hrl hrg
  rw [if_pos (by omega)]
  congr 1
  apply List.ext_getElem?
  intro i
  rw [List.append_assoc, List.append_assoc]
  by_cases h1 : i < pre.length
  · rw [List.getElem?_append_left (by rw [List.length_take]; omega), List.getElem?_take_of_lt h1, hrg,
      if_neg (by omega), List.getElem?_append_left (by simp; omega),
      List.getElem?_append_left h1, List.getElem?_append_left h1]
  · have htl : (r.take pre.length).length = pre.length := by rw [List.length_take]; omega
    rw [List.getElem?_append_right (by omega), htl,
      List.getElem?_append_right (l₁ := pre) (by omega)]
    by_cases h2 : i - pre.length < a.length
    · rw [List.getElem?_append_left h2, List.getElem?_append_left h2]
    · rw [List.getElem?_append_right (l₁ := a) (by omega),
        List.getElem?_append_right (l₁ := a) (by omega), List.getElem?_drop, hrg]
      by_cases h3 : i - pre.length - a.length < post.length
      · rw [if_pos (by omega), List.getElem?_append_left (by simp; omega),
          List.getElem?_append_right (by omega)]
        have : pre.length + 1 + (pre.length + a.length + (i - pre.length - a.length) -
            (pre.length + a.length)) - pre.length = (i - pre.length - a.length) + 1 := by omega
        rw [this, List.getElem?_cons_succ]
      · rw [if_neg (by omega), List.getElem?_eq_none (by simp; omega),
          List.getElem?_eq_none (by omega)]

/-- A splatted range is *just empty* if its exclusive upper end equals its start: `*(a...a)` or
`*(a..a-1)`. -/
def JustEmpty : Val → Prop
  | .splat (.range (.int lo) (.int hi) excl) => hi + (if excl then 0 else 1) = lo
  | _ => False

theorem popArgs_splat {l out : List Val} (h : Splatted l out) (hj : ∀ v ∈ l, ¬ JustEmpty v) :
    ∀ (fuel : Nat) (pre : List Val), l.length < fuel →
      popArgs fuel (pre ++ l) pre.length = .ok (pre ++ out) := by
  induction h with
  | nil =>
    intro fuel pre hf
    obtain ⟨f, rfl⟩ := Nat.exists_eq_succ_of_ne_zero (by omega : fuel ≠ 0)
    simp [popArgs]
  | plain v l out hv _ ih =>
    intro fuel pre hf
    obtain ⟨f, rfl⟩ := Nat.exists_eq_succ_of_ne_zero (by omega : fuel ≠ 0)
    have ih := ih (fun w hw => hj w (by simp [hw])) f (pre ++ [v]) (by simp at hf; omega)
    simp only [List.append_assoc, List.singleton_append, List.length_append, List.length_cons,
      List.length_nil, Nat.zero_add] at ih
    have hg : (pre ++ v :: l)[pre.length]? = some v := by
      rw [List.getElem?_append_right (by omega)]; simp
    cases v <;> first
      | exact absurd rfl (hv _)
      | (simp only [popArgs, hg]; exact ih)
  | splat v a l out hv _ ih =>
    intro fuel pre hf
    obtain ⟨f, rfl⟩ := Nat.exists_eq_succ_of_ne_zero (by omega : fuel ≠ 0)
    have hf' : l.length < f := by simp at hf; omega
    have ih := ih (fun w hw => hj w (by simp [hw])) f (pre ++ a) hf'
    have hg : (pre ++ Val.splat v :: l)[pre.length]? = some (Val.splat v) := by
      rw [List.getElem?_append_right (by omega)]; simp
    have hrm : removeAt (pre ++ Val.splat v :: l) pre.length = pre ++ l := by
      simp [removeAt, List.eraseIdx_append_of_length_le]
    have hset : ∀ w, (pre ++ Val.splat v :: l).set pre.length w = pre ++ w :: l := by
      intro w; simp
    rw [List.length_append, List.append_assoc, List.append_assoc] at ih
    cases hv with
    | array a =>
      simp only [popArgs, hg]
      by_cases ha : a = []
      · subst ha
        simpa [hrm] using ih
      · have : ¬ a.length = 0 := by simpa using ha
        rw [if_neg this, spread_eq _ _ _ _ ha]
        simp only [bind, Except.bind, List.append_assoc]
        exact ih
    | range lo hi excl is h hs =>
      have he := range_expand h hs
      have hne := hj (.splat (.range (.int lo) (.int hi) excl)) (by simp)
      simp only [JustEmpty] at hne
      simp only [popArgs, hg]
      by_cases hc : hi + (if excl then 0 else 1) ≥ lo
      · rw [if_pos hc] at he ⊢
        rw [← he]
        have : is.map Val.int ≠ [] := by
          rw [he]
          have : (hi + (if excl then 0 else 1) - lo).toNat ≠ 0 := by omega
          obtain ⟨k, hk⟩ := Nat.exists_eq_succ_of_ne_zero this
          rw [hk]; simp [intsFrom]
        rw [spread_eq _ _ _ _ this]
        simp only [bind, Except.bind, List.append_assoc]
        exact ih
      · rw [if_neg hc] at he ⊢
        rw [he] at ih ⊢
        simpa [hrm] using ih
    | obj n => simp only [popArgs, hg, hset]; exact ih
    | int n => simp only [popArgs, hg, hset]; exact ih
    | proc n => simp only [popArgs, hg, hset]; exact ih

/-- **C39, calls.**  In the arguments of a call every `*v` is replaced in place by the elements of the
array `v`, by the integers of the range `v`, or by `v` itself; all other arguments stay, and the order is
kept.

`_partial`: not for ranges that are just empty (see `C39_empty_range_fails`), and `Expands` says nothing
about nil (see `C39_nil_fails`), objects with their own `to_a`, hashes and ranges of other values. -/
theorem C39_call_partial (l out : List Val) (h : Splatted l out) (hj : ∀ v ∈ l, ¬ JustEmpty v) :
    popArgsToArgs l = .ok out :=
  popArgs_splat h hj _ [] (by omega)

/-- `f(1, *[2, 3], *[], *(5..7), *(9...3), 4)` -/
example : Splatted [.int 1, .splat (.array [.int 2, .int 3]), .splat (.array []),
      .splat (.range (.int 5) (.int 7) false), .splat (.range (.int 9) (.int 3) true), .int 4]
    [.int 1, .int 2, .int 3, .int 5, .int 6, .int 7, .int 4] ∧
    (∀ v ∈ [.int 1, .splat (.array [.int 2, .int 3]), .splat (.array []),
      .splat (.range (.int 5) (.int 7) false), .splat (.range (.int 9) (.int 3) true), Val.int 4],
      ¬ JustEmpty v) := by
  refine ⟨.plain _ _ _ (by simp) (.splat _ [.int 2, .int 3] _ _ (.array _)
    (.splat _ [] _ _ (.array _) (.splat _ [.int 5, .int 6, .int 7] _ _
      (.range 5 7 false [5, 6, 7] (by intro i; simp; omega) (by decide))
      (.splat _ [] _ _ (.range 9 3 true [] (by intro i; simp; omega) (by decide))
        (.plain _ _ _ (by simp) .nil))))), ?_⟩
  intro v hv
  simp only [List.mem_cons, List.not_mem_nil, or_false] at hv
  rcases hv with rfl | rfl | rfl | rfl | rfl | rfl <;> simp [JustEmpty]

/-- **C39 fails** for just empty ranges: `f(*(1...1))` and `f(*(1..0))` abort the program (a subtraction
below zero) instead of passing no argument. -/
theorem C39_empty_range_fails :
    Splatted [.splat (.range (.int 1) (.int 1) true)] [] ∧
    popArgsToArgs [.splat (.range (.int 1) (.int 1) true)] = .error .fault ∧
    Splatted [.splat (.range (.int 1) (.int 0) false)] [] ∧
    popArgsToArgs [.splat (.range (.int 1) (.int 0) false)] = .error .fault :=
  ⟨.splat _ [] _ _ (.range 1 1 true [] (by intro i; simp) .nil) .nil, rfl,
   .splat _ [] _ _ (.range 1 0 false [] (by intro i; simp; omega) .nil) .nil, rfl⟩

/-- **C39 fails** for nil: `f(*nil)` passes nil instead of no argument. -/
theorem C39_nil_fails : popArgsToArgs [.splat .nil] = .ok [.nil] := rfl

theorem popArray_splat {l out : List Val} (h : Splatted l out) :
    ∀ acc, popArgsToArray acc l = .ok (acc ++ out) := by
  induction h with
  | nil => intro acc; simp [popArgsToArray]
  | plain v l out hv _ ih =>
    intro acc
    cases v <;> first
      | exact absurd rfl (hv _)
      | (simp only [popArgsToArray, ih]; simp)
  | splat v a l out hv _ ih =>
    intro acc
    cases hv with
    | array a => simp only [popArgsToArray, ih]; simp
    | range lo hi excl is h hs =>
      have he := range_expand h hs
      simp only [popArgsToArray]
      by_cases hc : hi + (if excl then 0 else 1) ≥ lo
      · rw [if_pos hc] at he ⊢
        rw [ih, he]; simp
      · rw [if_neg hc] at he ⊢
        rw [ih, he]; simp
    | obj n => simp only [popArgsToArray, ih]; simp
    | int n => simp only [popArgsToArray, ih]; simp
    | proc n => simp only [popArgsToArray, ih]; simp

/-- **C39, array literals.**  The same for the elements of an array literal, and there for all ranges.

`_partial`: `Expands` says nothing about nil, objects with `to_a`, hashes and ranges of other values. -/
theorem C39_array_partial (l out : List Val) (h : Splatted l out) :
    popArgsToArray [] l = .ok out := by
  simpa using popArray_splat h []

/-- `[*(1...1), 2]` is `[2]` -/
example : Splatted [.splat (.range (.int 1) (.int 1) true), .int 2] [.int 2] :=
  .splat _ [] _ _ (.range 1 1 true [] (by intro i; simp) .nil)
    (.plain _ _ _ (by simp) .nil)

end Verif.Args
