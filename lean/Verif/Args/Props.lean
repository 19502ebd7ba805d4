import Verif.Args.Frame
import Mathlib.Data.List.Nodup
import Mathlib.Tactic.Tauto
/-!
# C38, C39: argument binding and splat arguments
-/
namespace Verif.Args

/-- the only parameters are required ones: such methods and blocks take a faster path -/
def Sig.plain (s : Sig) : Prop :=
  s.opt = [] ∧ s.rest = none ∧ s.post = [] ∧ s.kw = [] ∧ s.kwrest = none ∧ s.block = none

theorem optFlag_iff (s : Sig) (locals : List Nat) : (s.code locals).optFlag = true ↔ s.plain := by
  show s.params.isOpt = true ↔ _
  simp only [Params.isOpt, Sig.params, kwTable_isEmpty, Sig.plain]
  simp only [List.isEmpty_iff, beq_iff_eq, List.length_eq_zero_iff, Option.isNone_iff_eq_none,
    Bool.and_eq_true, Option.map_eq_none_iff, Bool.not_eq_true', Option.isSome_eq_false_iff,
    List.isEmpty_nil, true_and]
  tauto

/-! ## Lemmas: from slots to bindings -/

/-- a name is found in at most one slot -/
theorem holds_fun {c : Code} {l : List Val} {n : Nat} {v w : Val} (hn : c.lvar.table.Nodup)
    (h1 : Holds c l n v) (h2 : Holds c l n w) : v = w := by
  obtain ⟨i, hi, hv⟩ := h1
  obtain ⟨j, hj, hw⟩ := h2
  obtain ⟨hi', ei⟩ := List.getElem?_eq_some_iff.mp hi
  obtain ⟨hj', ej⟩ := List.getElem?_eq_some_iff.mp hj
  have : i = j := (List.Nodup.getElem_inj_iff hn).mp (ei.trans ej.symm)
  subst this
  rw [hv] at hw
  injection hw

theorem binds_holds {s : Sig} {locals : List Nat} {P : List Val} {kw : KwArg} {blk : Option Nat}
    {l : List Val} (hf : FrameOf s locals P kw blk l) (ha : s.arityOk P.length)
    {n : Nat} {v : Val} (h : s.Binds P kw blk n v) :
    Holds (s.code locals) l n v := by
  have hpost : s.post.length ≤ P.length := by have := ha.1; omega
  have hrl := restLen_eq s locals
  have e : (if decide ((s.code locals).params.rest = some true) = true then 1 else 0) = s.restLen := by
    simpa using hrl
  have hltd : s.req.length + s.opt.length +
      (if decide ((s.code locals).params.rest = some true) = true then 1 else 0) + s.post.length ≤
      (s.code locals).lvars := by
    rw [e, code_lvars, names_length]
    simp only [Sig.kwBase]; omega
  have hd := fun i => distributed_get (req := s.req.length) (opt := s.opt.length)
    (lvars := (s.code locals).lvars) hpost hltd i
  rw [e] at hd
  have hpos : ∀ i, i < s.req.length + s.opt.length + s.restLen + s.post.length → l[i]? = _ :=
    fun i hi => (hf.pos i (by simp only [Sig.kwBase]; omega)).trans (hd i)
  cases h with
  | req i n v hi hv =>
    have hi' := (List.getElem?_eq_some_iff.mp hi).1
    refine ⟨i, slot_req hi, ?_⟩
    rw [hpos i (by omega), if_pos hi', if_pos (by have := ha.1; omega), hv]
  | opt i n v hi hlt hv =>
    have hi' := (List.getElem?_eq_some_iff.mp hi).1
    refine ⟨_, slot_opt hi, ?_⟩
    rw [hpos _ (by omega), if_neg (by omega), if_pos (by omega), if_pos hlt, hv]
  | optDefault i n hi hle =>
    have hi' := (List.getElem?_eq_some_iff.mp hi).1
    refine ⟨_, slot_opt hi, ?_⟩
    rw [hpos _ (by omega), if_neg (by omega), if_pos (by omega), if_neg (by omega)]
  | post i n v hi hv =>
    have hi' := (List.getElem?_eq_some_iff.mp hi).1
    refine ⟨_, slot_post hi, ?_⟩
    rw [hpos _ (by omega), if_neg (by omega), if_neg (by omega), if_neg (by omega),
      if_pos (by omega), ← hv]
    congr 1; omega
  | rest n mid hr hm =>
    have hrl1 : s.restLen = 1 := by simp [Sig.restLen, hr]
    refine ⟨_, slot_rest hr, ?_⟩
    rw [hpos _ (by omega), if_neg (by omega), if_neg (by omega), if_pos (by omega)]
    congr 2
    apply List.ext_getElem?
    intro i
    rw [List.getElem?_take, List.getElem?_drop]
    apply Option.ext
    intro v
    have := hm v i
    by_cases hc : i < P.length - s.post.length - (s.req.length + s.opt.length)
    · rw [if_pos hc, this]
      constructor
      · intro h; exact ⟨h, by omega⟩
      · exact fun h => h.1
    · rw [if_neg hc, this]
      constructor
      · intro h; cases h
      · rintro ⟨_, h⟩; omega
  | kw n b v hm hv =>
    obtain ⟨j, hj⟩ := List.getElem?_of_mem hm
    exact ⟨_, slot_kw hj, hf.given j _ b v hj hv⟩
  | kwDefault n hm hv =>
    obtain ⟨j, hj⟩ := List.getElem?_of_mem hm
    exact ⟨_, slot_kw hj, hf.default j _ _ hj hv⟩
  | kwrest n hk => exact ⟨_, slot_kwrest hk, hf.kwrest (by simp [hk])⟩
  | block n b hb he =>
    refine ⟨_, slot_block hb, ?_⟩
    rw [hf.block (by simp [hb]), he]
  | noBlock n hb he =>
    refine ⟨_, slot_block hb, ?_⟩
    rw [hf.block (by simp [hb]), he]

theorem binds_exists {s : Sig} {P : List Val} {kw : KwArg} {blk : Option Nat}
    (ha : s.arityOk P.length) (hc : s.kwComplete kw) {n : Nat} (hn : n ∈ s.names) :
    ∃ v, s.Binds P kw blk n v := by
  have h1 := ha.1
  simp only [Sig.names, List.mem_append, or_assoc] at hn
  rcases hn with hn | hn | hn | hn | hn | hn | hn
  · obtain ⟨i, hi⟩ := List.getElem?_of_mem hn
    have hi' := (List.getElem?_eq_some_iff.mp hi).1
    exact ⟨_, .req i n _ hi (List.getElem?_eq_getElem (by omega))⟩
  · obtain ⟨i, hi⟩ := List.getElem?_of_mem hn
    have hi' := (List.getElem?_eq_some_iff.mp hi).1
    by_cases h : s.req.length + i + s.post.length < P.length
    · exact ⟨_, .opt i n _ hi h (List.getElem?_eq_getElem (by omega))⟩
    · exact ⟨_, .optDefault i n hi (by omega)⟩
  · have hr : s.rest = some (some n) := by
      match hs : s.rest, hn with
      | some (some m), hn => simp at hn; rw [hn]
      | some none, hn => simp at hn
      | none, hn => simp at hn
    refine ⟨_, .rest n ((P.drop (s.req.length + s.opt.length)).take
      (P.length - s.post.length - (s.req.length + s.opt.length))) hr ?_⟩
    intro v i
    rw [List.getElem?_take, List.getElem?_drop]
    by_cases hc : i < P.length - s.post.length - (s.req.length + s.opt.length)
    · rw [if_pos hc]
      constructor
      · intro h; exact ⟨h, by omega⟩
      · exact fun h => h.1
    · rw [if_neg hc]
      constructor
      · intro h; cases h
      · rintro ⟨_, h⟩; omega
  · obtain ⟨i, hi⟩ := List.getElem?_of_mem hn
    have hi' := (List.getElem?_eq_some_iff.mp hi).1
    exact ⟨_, .post i n _ hi (List.getElem?_eq_getElem (by omega))⟩
  · obtain ⟨⟨m, b⟩, hm, rfl⟩ := List.mem_map.mp hn
    by_cases hv : ∃ v, (m, v) ∈ kw.getD []
    · obtain ⟨v, hv⟩ := hv
      exact ⟨v, .kw m b v hm hv⟩
    · cases b with
      | true => exact absurd (hc m hm) hv
      | false => exact ⟨_, .kwDefault m hm (fun v h => hv ⟨v, h⟩)⟩
  · have : s.kwrest = some n := by simpa using hn
    exact ⟨_, .kwrest n this⟩
  · have hb : s.block = some n := by simpa using hn
    cases blk with
    | none => exact ⟨_, .noBlock n hb rfl⟩
    | some b => exact ⟨_, .block n b hb rfl⟩

/-- the frame of the fast path -/
theorem plain_frame {s : Sig} (hp : s.plain) (locals : List Nat) (P : List Val) (blk : Option Nat)
    (hlen : P.length ≤ s.req.length) :
    FrameOf s locals P none blk
      (P ++ List.replicate ((s.code locals).lvars - P.length) Val.nil) := by
  obtain ⟨h1, h2, h3, h4, h5, h6⟩ := hp
  have hn : s.names.length = s.req.length := by simp [Sig.names, h1, h2, h3, h4, h5, h6]
  have hb : s.kwBase = s.req.length := by simp [Sig.kwBase, Sig.restLen, h1, h2, h3]
  have hlv := code_lvars s locals
  refine ⟨?_, ?_, ?_, ?_, ?_, ?_, ?_⟩
  · simp; omega
  · intro i hi
    have hr : decide ((s.code locals).params.rest = some true) = false := by
      show decide (s.rest.map Option.isSome = some true) = false
      simp [h2]
    rw [hr, distributed_get (by simp [h3]) (by simp [h1, h3]; omega)]
    rw [if_pos (by omega)]
    simp only [h3, List.length_nil, Nat.add_zero]
    rw [List.getElem?_append]
    by_cases hlt : i < P.length
    · rw [if_pos hlt, if_pos hlt]
    · rw [if_neg hlt, if_neg hlt, List.getElem?_replicate, if_pos (by omega)]
  · intro j n b v hj; simp [h4] at hj
  · intro j n b hj; simp [h4] at hj
  · intro h; simp [h5] at h
  · intro h; simp [h6] at h
  · intro i hi
    rw [List.getElem?_append_right (by omega), List.getElem?_replicate, if_pos (by omega)]

theorem checkArity_eq (s : Sig) (locals : List Nat) (args : List Val) (kw : KwArg) :
    checkArity (s.code locals).params (!s.takesKw && kw.isSome) args.length =
      if s.arityOk (s.positional args kw).length then .ok () else .error .arity := by
  have hlen : (s.positional args kw).length =
      args.length + (if (!s.takesKw && kw.isSome) = true then 1 else 0) := by
    cases kw with
    | none => simp [Sig.positional]
    | some h => cases ht : s.takesKw <;> simp [Sig.positional, ht]
  generalize (s.positional args kw).length = n at hlen ⊢
  generalize (!s.takesKw && kw.isSome) = k at hlen
  have hrest : (s.code locals).params.rest.isSome = s.rest.isSome := by
    show (s.rest.map Option.isSome).isSome = _
    cases s.rest <;> rfl
  show (if (s.code locals).params.rest.isSome then _ else _) = _
  rw [hrest]
  simp only [Sig.arityOk]
  have e1 : (s.code locals).params.req = s.req.length := rfl
  have e2 : (s.code locals).params.post = s.post.length := rfl
  have e3 : (s.code locals).params.opt = s.opt.length := rfl
  have e4 : (s.code locals).params.delegate = none := rfl
  rw [e1, e2, e3, e4]
  rcases Bool.eq_false_or_eq_true s.rest.isSome with hr | hr <;> cases k <;>
    simp only [hr, Bool.false_eq_true, if_true, if_false, Option.isNone_none, false_or, true_or,
      and_true, Nat.add_zero] at hlen ⊢ <;>
    split_ifs <;> first | rfl | omega

theorem pushKw_eq (s : Sig) (args : List Val) (kw : KwArg) :
    pushKw (!s.takesKw) args kw = s.positional args kw := by
  cases kw with
  | none => rfl
  | some h => cases ht : s.takesKw <;> simp [pushKw, Sig.positional, ht]

/-! ## C38 -/

/-- **C38, methods.**  For every parameter list `req…, opt = …, *rest, post…, kw: …, **kwrest, &block`,
every list of positional arguments, keyword arguments and block:
a wrong number of arguments raises ArgumentError, an unknown keyword raises ArgumentError, and otherwise
the method starts with every parameter bound as the language rules (`Sig.Binds`) say, and every other
local variable nil.

`_partial`: three cases in which the program does something else are excluded by hypotheses, and shown
below: keyword arguments given to a method with only required parameters (`hfast`), keyword parameters
after a bare `*` (`hstar`), and a keyword parameter without default that is not given (`kwComplete`). -/
theorem C38_method_partial (s : Sig) (hOk : s.Ok) (hstar : s.rest = some none → s.kw = [])
    (locals : List Nat) (hloc : (s.names ++ locals).Nodup) (c : Code)
    (hc : define s.items locals = some c) (args : List Val) (kw : KwArg) (blk : Option Nat)
    (hkw : ((kw.getD []).map (·.1)).Nodup) (hfast : kw = none ∨ ¬ s.plain) :
    (¬ s.arityOk (s.positional args kw).length → callMethod c args kw blk = .error .arity) ∧
    (s.arityOk (s.positional args kw).length → ¬ s.kwKnown kw →
      callMethod c args kw blk = .error .keyword) ∧
    (s.arityOk (s.positional args kw).length → s.kwKnown kw → s.kwComplete kw →
      ∃ l, callMethod c args kw blk = .ok l ∧ l.length = s.names.length + locals.length ∧
        (∀ n ∈ s.names, (∃ v, Holds c l n v) ∧
          ∀ v, Holds c l n v ↔ s.Binds (s.positional args kw) kw blk n v) ∧
        ∀ n ∈ locals, Holds c l n .nil) := by
  rw [define_sig s hOk locals] at hc
  injection hc with hc
  have hcode : c = s.code locals := hc.symm
  subst hcode
  clear hc
  -- it is enough to describe the frame
  suffices H : (¬ s.arityOk (s.positional args kw).length →
        callMethod (s.code locals) args kw blk = .error .arity) ∧
      (s.arityOk (s.positional args kw).length → ¬ s.kwKnown kw →
        callMethod (s.code locals) args kw blk = .error .keyword) ∧
      (s.arityOk (s.positional args kw).length → s.kwKnown kw →
        ∃ l, callMethod (s.code locals) args kw blk = .ok l ∧
          FrameOf s locals (s.positional args kw) kw blk l) by
    refine ⟨H.1, H.2.1, fun ha hk hcmp => ?_⟩
    obtain ⟨l, e, hf⟩ := H.2.2 ha hk
    have hnd : (s.code locals).lvar.table.Nodup := hloc
    refine ⟨l, e, hf.len, ?_, ?_⟩
    · intro n hn
      obtain ⟨v, hv⟩ := binds_exists (blk := blk) ha hcmp hn
      have hh := binds_holds hf ha hv
      refine ⟨⟨v, hh⟩, fun w => ⟨fun hw => ?_, fun hw => binds_holds hf ha hw⟩⟩
      rw [holds_fun hnd hw hh]; exact hv
    · intro n hn
      obtain ⟨i, hi⟩ := List.getElem?_of_mem hn
      exact ⟨_, slot_local hi, hf.locals i (List.getElem?_eq_some_iff.mp hi).1⟩
  by_cases hpl : s.plain
  · -- the fast path
    have hkn : kw = none := hfast.resolve_right (fun h => h hpl)
    subst hkn
    have hopt : (s.code locals).optFlag = true := (optFlag_iff s locals).mpr hpl
    have hP : s.positional args none = args := rfl
    rw [hP]
    have hreq : (s.code locals).params.req = s.req.length := rfl
    have har : s.arityOk args.length ↔ args.length = s.req.length := by
      obtain ⟨h1, h2, h3, -, -, -⟩ := hpl
      simp only [Sig.arityOk, h1, h2, h3, List.length_nil, Option.isSome_none, Bool.false_eq_true,
        false_or, Nat.add_zero]
      omega
    have hknown : s.kwKnown none := Or.inr (Or.inr (by simp))
    simp only [callMethod, hopt, if_true, methodFast, hreq]
    refine ⟨fun h => ?_, fun _ h => absurd hknown h, fun h _ => ?_⟩
    · rw [if_pos (fun e => h (har.mpr e))]
    · have e := har.mp h
      rw [if_neg (by simp [e]), if_neg]
      · exact ⟨_, rfl, plain_frame hpl locals args blk (by omega)⟩
      · rw [code_lvars, e]
        simp only [Sig.names, List.length_append]
        omega
  · have hopt : (s.code locals).optFlag = false := by
      cases h : (s.code locals).optFlag
      · rfl
      · exact absurd ((optFlag_iff s locals).mp h) hpl
    have hslow : callMethod (s.code locals) args kw blk =
        (match checkArity (s.code locals).params (!s.takesKw && kw.isSome) args.length with
        | .ok () => finish (s.code locals) (s.positional args kw) kw blk
        | .error e => .error e) := by
      simp only [callMethod, hopt, Bool.false_eq_true, if_false]
      unfold methodSlow finish
      rw [noKw_eq]
      simp only [pushKw_eq, bind, Except.bind]
      cases checkArity (s.code locals).params (!s.takesKw && kw.isSome) args.length <;> rfl
    rw [hslow, checkArity_eq]
    refine ⟨fun h => ?_, fun h hk => ?_, fun h hk => ?_⟩
    · rw [if_neg h]
    · rw [if_pos h]
      exact (finish_ok s hOk hstar locals _ kw blk (by have := h.1; omega) hkw).2 hk
    · rw [if_pos h]
      exact (finish_ok s hOk hstar locals _ kw blk (by have := h.1; omega) hkw).1 hk

/-- `def f(a, b = …, *r, c, k:, j: …, **o, &blk)` -/
def sample : Sig :=
  { req := [1], opt := [2], rest := some (some 3), post := [4], kw := [(5, true), (6, false)],
    kwrest := some 7, block := some 8 }

/-- `f(10, 11, 12, 13, 14, k: 20, x: 21) { … }` binds a = 10, b = 11, r = [12, 13], c = 14, k = 20,
j = its default, o = {x: 21}, and the block; the local variable 9 is nil. -/
example : sample.Ok ∧ (sample.names ++ [9]).Nodup ∧
    sample.arityOk (sample.positional [.int 10, .int 11, .int 12, .int 13, .int 14]
      (some [(5, .int 20), (30, .int 21)])).length ∧
    sample.kwKnown (some [(5, .int 20), (30, .int 21)]) ∧
    sample.kwComplete (some [(5, .int 20), (30, .int 21)]) ∧
    (define sample.items [9]).map (fun c =>
      callMethod c [.int 10, .int 11, .int 12, .int 13, .int 14]
        (some [(5, .int 20), (30, .int 21)]) (some 40)) =
    some (.ok [.int 10, .int 11, .array [.int 12, .int 13], .int 14, .int 20, .uninit,
      .hash [(30, .int 21)], .proc 40, .nil]) := by
  refine ⟨⟨by decide, by decide⟩, by decide, by decide, Or.inr (Or.inl rfl), ?_, rfl⟩
  intro n hn
  simp [sample] at hn
  subst hn
  exact ⟨.int 20, by simp⟩

/-- fewer arguments: the trailing parameter is served before the optional one -/
example : (define sample.items []).map (fun c => callMethod c [.int 10, .int 11]
      (some [(5, .int 20)]) none) =
    some (.ok [.int 10, .uninit, .array [], .int 11, .int 20, .uninit, .hash [], .nil]) := rfl

/-- **C38 fails** when keyword arguments are given to a method with only required parameters
(`def f(a)`): `f(k: 1)` should bind `a` to the hash `{k: 1}` and raises ArgumentError instead; and
`f(5, k: 1)`, which has one argument too many, is accepted and the keyword argument is lost. -/
theorem C38_keywords_to_plain_method_fails :
    ∃ c, define ({ req := [1] } : Sig).items [] = some c ∧
      (({ req := [1] } : Sig).arityOk
        (({ req := [1] } : Sig).positional [] (some [(9, .int 1)])).length ∧
      callMethod c [] (some [(9, .int 1)]) none = .error .arity) ∧
      (¬ ({ req := [1] } : Sig).arityOk
        (({ req := [1] } : Sig).positional [.int 5] (some [(9, .int 1)])).length ∧
      callMethod c [.int 5] (some [(9, .int 1)]) none = .ok [.int 5]) :=
  ⟨_, rfl, ⟨by decide, rfl⟩, by decide, rfl⟩

/-- **C38 fails** for a keyword parameter without default: `def f(k:)` may be called as `f()`; the
parameter is then left without a value instead of an ArgumentError being raised. -/
theorem C38_missing_keyword_fails :
    ∃ c, define ({ kw := [(1, true)] } : Sig).items [] = some c ∧
      ¬ ({ kw := [(1, true)] } : Sig).kwComplete none ∧
      callMethod c [] none none = .ok [.uninit] := by
  refine ⟨_, rfl, ?_, rfl⟩
  intro h
  obtain ⟨v, hv⟩ := h 1 (by simp)
  simp at hv

/-- **C38 fails** for a keyword parameter after a bare `*`: in `def f(*, k: 0); x = nil; … end` the call
`f(k: 5)` leaves `k` without a value (so that its default is used) and stores 5 in the variable `x`.
Without the further variable the value is written outside of the frame. -/
theorem C38_keyword_after_star_fails :
    let s : Sig := { rest := some none, kw := [(1, false)] }
    s.Ok ∧ s.arityOk (s.positional [] (some [(1, .int 5)])).length ∧
    (∃ c l, define s.items [2] = some c ∧ callMethod c [] (some [(1, .int 5)]) none = .ok l ∧
      Holds c l 1 .uninit ∧ Holds c l 2 (.int 5) ∧
      s.Binds [] (some [(1, .int 5)]) none 1 (.int 5)) ∧
    (∃ c, define s.items [] = some c ∧
      callMethod c [] (some [(1, .int 5)]) none = .error .fault) := by
  refine ⟨⟨by decide, by decide⟩, by decide, ⟨_, [.uninit, .int 5], rfl, rfl, ⟨0, rfl, rfl⟩,
    ⟨1, rfl, rfl⟩, .kw 1 false _ (by simp) (by simp)⟩, ⟨_, rfl, rfl⟩⟩

/-! ## Blocks -/

theorem blockArgs_frame {s : Sig} {locals : List Nat} {Q : List Val} {kw : KwArg}
    {blk : Option Nat} {l : List Val} (hf : FrameOf s locals Q kw blk l)
    (h : s.post = [] ∨ s.arityOk Q.length) (hpost : s.post.length ≤ Q.length) (Q' : List Val)
    (hQ' : Q' = (if s.rest.isSome then
        Q ++ List.replicate (s.req.length + s.post.length - Q.length) Val.nil
      else (Q ++ List.replicate (s.req.length + s.post.length - Q.length) Val.nil).take
        (s.req.length + s.opt.length + s.post.length))) :
    s.arityOk Q'.length ∧ FrameOf s locals Q' kw blk l := by
  rcases h with hp | ha
  · have hp0 : s.post.length = 0 := by simp [hp]
    rw [hp0] at hQ'
    simp only [Nat.add_zero] at hQ'
    have hlen : Q'.length = if s.rest.isSome then max Q.length s.req.length
        else min (max Q.length s.req.length) (s.req.length + s.opt.length) := by
      rw [hQ']; split <;> simp <;> omega
    have har : s.arityOk Q'.length := by
      rw [hlen]
      refine ⟨?_, ?_⟩
      · rw [hp0]; split <;> omega
      · cases h : s.rest.isSome
        · right; simp [hp0]; omega
        · left; rfl
    refine ⟨har, hf.len, ?_, hf.given, hf.default, hf.kwrest, hf.block, hf.locals⟩
    intro i hi
    rw [hf.pos i hi]
    have hrl := restLen_eq s locals
    have e : (if decide ((s.code locals).params.rest = some true) = true then 1 else 0) = s.restLen := by
      simpa using hrl
    have hltd : s.req.length + s.opt.length +
        (if decide ((s.code locals).params.rest = some true) = true then 1 else 0) + s.post.length ≤
        (s.code locals).lvars := by
      rw [e, code_lvars, names_length]
      simp only [Sig.kwBase]; omega
    rw [distributed_get hpost hltd, distributed_get (by omega) hltd, e, hp0]
    simp only [Nat.add_zero, Nat.sub_zero]
    simp only [Sig.kwBase, hp0] at hi
    have hget : ∀ i, i < s.req.length + s.opt.length → Q'[i]? =
        if i < Q.length then Q[i]? else if i < s.req.length then some .nil else none := by
      intro i hi
      have hg : (Q ++ List.replicate (s.req.length - Q.length) Val.nil)[i]? =
          if i < Q.length then Q[i]? else if i < s.req.length then some .nil else none := by
        rw [List.getElem?_append, List.getElem?_replicate]
        by_cases h1 : i < Q.length
        · rw [if_pos h1, if_pos h1]
        · rw [if_neg h1, if_neg h1]
          by_cases h2 : i < s.req.length
          · rw [if_pos h2, if_pos (by omega)]
          · rw [if_neg h2, if_neg (by omega)]
      rw [hQ']
      split
      · exact hg
      · rw [List.getElem?_take, if_pos hi, hg]
    by_cases h1 : i < s.req.length
    · rw [if_pos h1, if_pos h1]
      have : i < Q'.length := by rw [hlen]; split <;> omega
      rw [if_pos this, hget i (by omega)]
      by_cases h2 : i < Q.length
      · rw [if_pos h2, if_pos h2]
      · rw [if_neg h2, if_neg h2, if_pos h1]
    · rw [if_neg h1, if_neg h1]
      by_cases h3 : i < s.req.length + s.opt.length
      · rw [if_pos h3, if_pos h3]
        by_cases h2 : i < Q.length
        · have : i < Q'.length := by rw [hlen]; split <;> omega
          rw [if_pos h2, if_pos this, hget i h3, if_pos h2]
        · have : ¬ i < Q'.length := by rw [hlen]; split <;> omega
          rw [if_neg h2, if_neg this]
      · rw [if_neg h3, if_neg h3]
        by_cases h4 : i < s.req.length + s.opt.length + s.restLen
        · rw [if_pos h4, if_pos h4]
          have hr : s.rest.isSome = true := by
            cases hr : s.rest with
            | none => simp [Sig.restLen, hr] at h4; omega
            | some x => rfl
          rw [if_pos hr] at hQ'
          congr 2
          rw [hQ']
          by_cases hq : Q.length < s.req.length
          · have a1 : Q.drop (s.req.length + s.opt.length) = [] := List.drop_eq_nil_of_le (by omega)
            have a2 : (Q ++ List.replicate (s.req.length - Q.length) Val.nil).drop
                (s.req.length + s.opt.length) = [] :=
              List.drop_eq_nil_of_le (by simp; omega)
            rw [a1, a2]; simp
          · have : s.req.length - Q.length = 0 := by omega
            rw [this]; simp
        · omega
  · have h0 : s.req.length + s.post.length - Q.length = 0 := by have := ha.1; omega
    rw [h0] at hQ'
    have : Q' = Q := by
      rw [hQ']
      cases hr : s.rest.isSome
      · have := ha.2
        rw [hr] at this
        simp only [Bool.false_eq_true, false_or] at this
        simp only [List.replicate_zero, List.append_nil, Bool.false_eq_true, if_false]
        exact List.take_of_length_le this
      · simp
    rw [this]
    exact ⟨ha, hf⟩

/-- **C38, blocks.**  A block (or proc) never complains about the number of arguments: an array given as
the only argument is spread over the parameters, missing arguments are nil and surplus ones are dropped;
the parameters are then bound as for a method.

`_partial`: besides the exclusions of `C38_method_partial`, the case of parameters after the optional or
rest section (`|a, b = 1, c|`) is covered only when the number of arguments fits (`hpost`), and an array
is only covered if the block has two required parameters or at most one parameter (`hspread`); the
theorems below show what happens otherwise. -/
theorem C38_block_partial (s : Sig) (hOk : s.Ok) (hstar : s.rest = some none → s.kw = [])
    (locals : List Nat) (hloc : (s.names ++ locals).Nodup) (c : Code)
    (hc : define s.items locals = some c) (args : List Val) (kw : KwArg) (blk : Option Nat)
    (hkw : ((kw.getD []).map (·.1)).Nodup) (hfast : kw = none ∨ ¬ s.plain)
    (hspread : ∀ a, s.positional args kw = [.array a] →
      (s.spreads = true ↔ 1 < s.req.length + s.post.length))
    (hpost : s.post = [] ∨ s.arityOk (prepareBlockArgs c (s.positional args kw)).length)
    (hknown : s.kwKnown kw) (hcmp : s.kwComplete kw) :
    ∃ l, callBlock c args kw blk = .ok l ∧ l.length = s.names.length + locals.length ∧
      (∀ n ∈ s.names, (∃ v, Holds c l n v) ∧
        ∀ v, Holds c l n v ↔ s.Binds (s.blockArgs (s.positional args kw)) kw blk n v) ∧
      ∀ n ∈ locals, Holds c l n .nil := by
  rw [define_sig s hOk locals] at hc
  injection hc with hc
  have hcode : c = s.code locals := hc.symm
  subst hcode
  clear hc
  have hmul : (s.code locals).mulargFlag = decide (1 < s.req.length + s.post.length) := rfl
  -- the arguments after an array has been spread
  have hprep : ∀ P, P = s.positional args kw → s.spreadArgs P = prepareBlockArgs (s.code locals) P := by
    intro P hP
    match P, hP with
    | [], _ => rfl
    | [.array a], hP =>
      have := hspread a hP.symm
      simp only [prepareBlockArgs, Sig.spreadArgs, hmul]
      by_cases h : s.spreads = true
      · simp [h, this.mp h]
      · have h' : ¬ 1 < s.req.length + s.post.length := fun h' => h (this.mpr h')
        simp [h, h']
    | [.nil], _ => rfl
    | [.uninit], _ => rfl
    | [.int _], _ => rfl
    | [.obj _], _ => rfl
    | [.hash _], _ => rfl
    | [.range _ _ _], _ => rfl
    | [.splat _], _ => rfl
    | [.proc _], _ => rfl
    | _ :: _ :: _, _ => simp [prepareBlockArgs, Sig.spreadArgs]
  have hba : s.blockArgs (s.positional args kw) =
      (if s.rest.isSome then
        prepareBlockArgs (s.code locals) (s.positional args kw) ++ List.replicate (s.req.length + s.post.length - (prepareBlockArgs (s.code locals) (s.positional args kw)).length) Val.nil
      else (prepareBlockArgs (s.code locals) (s.positional args kw) ++ List.replicate (s.req.length + s.post.length - (prepareBlockArgs (s.code locals) (s.positional args kw)).length) Val.nil).take
        (s.req.length + s.opt.length + s.post.length)) := by
    have := hprep _ rfl
    simp only [Sig.blockArgs]
    rw [this]
  -- it is enough to describe the frame
  have H : ∃ l, callBlock (s.code locals) args kw blk = .ok l ∧
      FrameOf s locals (s.blockArgs (s.positional args kw)) kw blk l ∧
      s.arityOk (s.blockArgs (s.positional args kw)).length := by
    have hpl' : s.post.length ≤ (prepareBlockArgs (s.code locals) (s.positional args kw)).length := by
      rcases hpost with h | h
      · simp [h]
      · have := h.1; omega
    by_cases hpl : s.plain
    · have hkn : kw = none := hfast.resolve_right (fun h => h hpl)
      subst hkn
      have hopt : (s.code locals).optFlag = true := (optFlag_iff s locals).mpr hpl
      simp only [callBlock, hopt, if_true, blockFast]
      have hP : s.positional args none = args := rfl
      rw [hP] at hba hpl' ⊢
      generalize prepareBlockArgs (s.code locals) args = Q at *
      have hreq : (s.code locals).params.req = s.req.length := rfl
      have hlv := code_lvars s locals
      have hnm : s.req.length ≤ s.names.length := by
        simp only [Sig.names, List.length_append]; omega
      obtain ⟨h1, h2, h3, -, -, -⟩ := id hpl
      have hQ2 : (if s.req.length < Q.length then Q.take s.req.length else Q) = Q.take s.req.length := by
        split
        · rfl
        · exact (List.take_of_length_le (by omega)).symm
      have hf := plain_frame hpl locals (Q.take s.req.length) blk (by simp; omega)
      refine ⟨_, rfl, ?_⟩
      rw [hreq, hQ2]
      have hres : resizeTo (Q.take s.req.length) (s.code locals).lvars =
          Q.take s.req.length ++ List.replicate ((s.code locals).lvars - (Q.take s.req.length).length) Val.nil := by
        rw [resizeTo, List.take_of_length_le (by simp; omega)]
      rw [hres]
      have := blockArgs_frame hf (Or.inl h3) (by simp [h3]) (s.blockArgs args) (by
        rw [hba]
        simp only [h2, h1, h3, Option.isSome_none, Bool.false_eq_true, if_false, List.length_nil,
          Nat.add_zero, List.length_take]
        rw [List.take_append, List.take_append, List.length_take]
        apply List.ext_getElem?
        intro i
        simp only [List.getElem?_append, List.getElem?_take, List.getElem?_replicate,
          List.length_take]
        grind)
      exact ⟨this.2, this.1⟩
    · have hopt : (s.code locals).optFlag = false := by
        cases h : (s.code locals).optFlag
        · rfl
        · exact absurd ((optFlag_iff s locals).mp h) hpl
      have hslow : callBlock (s.code locals) args kw blk =
          finish (s.code locals) (prepareBlockArgs (s.code locals) (s.positional args kw)) kw blk := by
        simp only [callBlock, hopt, Bool.false_eq_true, if_false]
        unfold blockSlow finish
        rw [noKw_eq]
        simp only [pushKw_eq]
      obtain ⟨l, e, hf⟩ := (finish_ok s hOk hstar locals _ kw blk hpl' hkw).1 hknown
      obtain ⟨ha, hf'⟩ := blockArgs_frame hf hpost hpl' _ hba
      exact ⟨l, by rw [hslow, e], hf', ha⟩
  obtain ⟨l, e, hf, ha⟩ := H
  have hnd : (s.code locals).lvar.table.Nodup := hloc
  refine ⟨l, e, hf.len, ?_, ?_⟩
  · intro n hn
    obtain ⟨v, hv⟩ := binds_exists (blk := blk) ha hcmp hn
    have hh := binds_holds hf ha hv
    refine ⟨⟨v, hh⟩, fun w => ⟨fun hw => ?_, fun hw => binds_holds hf ha hw⟩⟩
    rw [holds_fun hnd hw hh]; exact hv
  · intro n hn
    obtain ⟨i, hi⟩ := List.getElem?_of_mem hn
    exact ⟨_, slot_local hi, hf.locals i (List.getElem?_eq_some_iff.mp hi).1⟩

/-- `|a, b|` called with `[1, 2, 3]`, and `|a, b, c = 0|` called with 1. -/
example : (define ({ req := [1, 2] } : Sig).items [3]).map
      (fun c => callBlock c [.array [.int 1, .int 2, .int 3]] none none) =
      some (.ok [.int 1, .int 2, .nil]) ∧
    ({ req := [1, 2] } : Sig).spreads = true ∧
    (define ({ req := [1, 2], opt := [3] } : Sig).items []).map
      (fun c => callBlock c [.int 1] none none) = some (.ok [.int 1, .nil, .uninit]) :=
  ⟨rfl, rfl, rfl⟩

/-- **C38 fails** for blocks with one required parameter and a rest parameter: `|a, *r|` called with the
array `[1, 2]` binds `a` to the whole array. -/
theorem C38_block_array_fails :
    let s : Sig := { req := [1], rest := some (some 2) }
    s.blockArgs [.array [.int 1, .int 2]] = [.int 1, .int 2] ∧
    (∃ c l, define s.items [] = some c ∧
      callBlock c [.array [.int 1, .int 2]] none none = .ok l ∧
      Holds c l 1 (.array [.int 1, .int 2]) ∧ s.Binds [.int 1, .int 2] none none 1 (.int 1)) :=
  ⟨rfl, _, [.array [.int 1, .int 2], .array []], rfl, rfl, ⟨0, rfl, rfl⟩, .req 0 1 _ rfl rfl⟩

/-- **C38 fails** for blocks with a parameter after an optional one: `|a, b = 0, c|` called with 1 binds
`c` to 1 and `a` to nil instead of `a` to 1 and `c` to nil; called with 1, 2, 3, 4, 5 it binds `c` to 5
instead of 3. -/
theorem C38_block_post_fails :
    let s : Sig := { req := [1], opt := [2], post := [3] }
    s.Ok ∧
    (∃ c l l', define s.items [] = some c ∧
      callBlock c [.int 1] none none = .ok l ∧ Holds c l 1 .nil ∧ Holds c l 3 (.int 1) ∧
      s.Binds (s.blockArgs [.int 1]) none none 1 (.int 1) ∧
      s.Binds (s.blockArgs [.int 1]) none none 3 .nil ∧
      callBlock c [.int 1, .int 2, .int 3, .int 4, .int 5] none none = .ok l' ∧
      Holds c l' 3 (.int 5) ∧
      s.Binds (s.blockArgs [.int 1, .int 2, .int 3, .int 4, .int 5]) none none 3 (.int 3)) :=
  ⟨⟨by decide, by decide⟩, _, [.nil, .uninit, .int 1], [.int 1, .int 2, .int 5], rfl, rfl,
    ⟨0, rfl, rfl⟩, ⟨2, rfl, rfl⟩, .req 0 1 _ rfl rfl, .post 0 3 _ rfl rfl, rfl,
    ⟨2, rfl, rfl⟩, .post 0 3 _ rfl rfl⟩

/-- **C38 fails**: a block with more trailing parameters than arguments aborts the program
(`|a, b = 0, c, d|` called with 1; also `|*a, b, c|` called with 1). -/
theorem C38_block_abort_fails :
    (∃ c, define ({ req := [1], opt := [2], post := [3, 4] } : Sig).items [] = some c ∧
      callBlock c [.int 1] none none = .error .fault) ∧
    (∃ c, define ({ rest := some (some 1), post := [2, 3] } : Sig).items [] = some c ∧
      callBlock c [.int 1] none none = .error .fault) :=
  ⟨⟨_, rfl, rfl⟩, _, rfl, rfl⟩

end Verif.Args
