import Verif.Codegen.Run
/-!
# What a piece of code does, compared with what its source means
-/
namespace Verif.Codegen
open Verif.ISeq Op
open Verif.Value (Val)

variable {W X : Type}

/-! ### Where jumps out of a piece of code go -/

/-- Targets of `break`, `next`, and of `return` through an `ensure` clause. -/
structure Tgt where
  brk : Nat
  nxt : Nat
  ret : Nat
  mret : Nat

/-- Not inside a `while`. -/
def loopTop (g : G) : Bool := match g.loops with | l :: _ => l.top | [] => true

/-- `return` goes through an `ensure` clause. -/
def ensured (g : G) : Bool := match g.jumps with | d :: _ => d.has_ensure | [] => false

def escOf (g : G) : List (Nat × EK) := match g.loops with | l :: _ => l.escape | [] => []
def retsOf (g : G) : List Nat := match g.jumps with | d :: _ => d.rets | [] => []
def mretsOf (g : G) : List Nat := match g.jumps with | d :: _ => d.mrets | [] => []

/-- The jumps recorded since position `a` lead to the targets. -/
structure Resolved (c : Code) (a : Nat) (g : G) (T : Tgt) : Prop where
  brk : ∀ s, (s, EK.brk) ∈ escOf g → a < s → Site c s T.brk
  nxt : ∀ s, (s, EK.nxt) ∈ escOf g → a < s → Site c s T.nxt
  ret : ∀ s ∈ retsOf g, a < s → Site c s T.ret
  mret : ∀ s ∈ mretsOf g, a < s → Site c s T.mret
  bb : T.brk ≤ c.length
  bn : T.nxt ≤ c.length
  br : T.ret ≤ c.length
  bm : T.mret ≤ c.length

theorem Grow.loopTop {g g' : G} (h : Grow g g') : loopTop g' = loopTop g := by
  have := h.loops
  unfold Codegen.loopTop
  generalize g.loops = a, g'.loops = b at this
  cases this with
  | nil => rfl
  | cons h => exact h.1

theorem Grow.ensured {g g' : G} (h : Grow g g') : ensured g' = ensured g := by
  have := h.jumps
  unfold Codegen.ensured
  generalize g.jumps = a, g'.jumps = b at this
  cases this with
  | nil => rfl
  | cons h => exact h.1

theorem Grow.esc {g g' : G} (h : Grow g g') : ∀ e ∈ escOf g, e ∈ escOf g' := by
  have := h.loops
  unfold escOf
  generalize g.loops = a, g'.loops = b at this
  cases this with
  | nil => simp
  | cons h => obtain ⟨_, E, e, _⟩ := h; intro s hs; dsimp only at hs ⊢; rw [e]; exact List.mem_append_left _ hs

theorem Grow.rets {g g' : G} (h : Grow g g') : ∀ e ∈ retsOf g, e ∈ retsOf g' := by
  have := h.jumps
  unfold retsOf
  generalize g.jumps = a, g'.jumps = b at this
  cases this with
  | nil => simp
  | cons h => obtain ⟨_, ⟨E, e, _⟩, _⟩ := h; intro s hs; dsimp only at hs ⊢; rw [e]; exact List.mem_append_left _ hs

theorem Grow.mrets {g g' : G} (h : Grow g g') : ∀ e ∈ mretsOf g, e ∈ mretsOf g' := by
  have := h.jumps
  unfold mretsOf
  generalize g.jumps = a, g'.jumps = b at this
  cases this with
  | nil => simp
  | cons h => obtain ⟨_, _, E, e, _⟩ := h; intro s hs; dsimp only at hs ⊢; rw [e]; exact List.mem_append_left _ hs

theorem Resolved.sub {c : Code} {a a1 : Nat} {g2 g' : G} {T : Tgt} (h : Resolved c a g' T) (e : Grow g2 g')
    (hle : a ≤ a1) : Resolved c a1 g2 T where
  brk s hs ha := h.brk s (e.esc _ hs) (by omega)
  nxt s hs ha := h.nxt s (e.esc _ hs) (by omega)
  ret s hs ha := h.ret s (e.rets _ hs) (by omega)
  mret s hs ha := h.mret s (e.mrets _ hs) (by omega)
  bb := h.bb
  bn := h.bn
  br := h.br
  bm := h.bm

/-! ### Outcomes -/

/-- How a `return` in a body of this kind ends the body. -/
def retR (x : Ctx) (v : Val) (σ : St W) : R W X := if x.kind = some .block then .mret v σ else .ret v σ

/-- The `return`s of a body of this kind recorded so far. -/
def leftOf (x : Ctx) (g : G) : List Nat := if x.kind = some .block then mretsOf g else retsOf g

/-- Where they go. -/
def Tgt.left (T : Tgt) (x : Ctx) : Nat := if x.kind = some .block then T.mret else T.ret

/-- Code from `g0` to `g'` that is in configuration `k0` goes on to an outcome other than a value.
An exception is raised at a position in this code and not handled by it.
`base`: operand stack at the start of the surrounding `while`. -/
def Leaves (K : Env W X) (c : Code) (x : Ctx) (T : Tgt) (g0 g' : G) (base : List Val)
    (k0 : Conf (S W) (R W X)) : Res X → St W → Prop
  | .val _, _ => False
  | .raise e, σ => ∃ pe, g0.code.length < pe ∧ pe ≤ g'.code.length ∧ (∀ en ∈ g'.ex, en.include pe = false) ∧
      Steps K c k0 (failC K pe e σ)
  | .brk v, σ => Steps K c k0 (if loopTop g0 then .done (.brk v σ) else .at T.brk ⟨v :: base, σ⟩)
  | .nxt v, σ => Steps K c k0 (if loopTop g0 then .done (.ret v σ) else .at T.nxt ⟨base, σ⟩)
  | .ret v crossed, σ =>
    if !crossed && ensured g0 then leftOf x g' ≠ [] ∧ ∃ st, Steps K c k0 (.at (T.left x) ⟨v :: st, σ⟩)
    else Steps K c k0 (.done (retR x v σ))

/-- … or to a value, as described by `V`. -/
def Reach (K : Env W X) (c : Code) (x : Ctx) (T : Tgt) (g0 g' : G) (base : List Val)
    (k0 : Conf (S W) (R W X)) (V : Val → St W → Conf (S W) (R W X)) (r : Res X) (σ : St W) : Prop :=
  (∃ v, r = .val v ∧ Steps K c k0 (V v σ)) ∨ Leaves K c x T g0 g' base k0 r σ

theorem Leaves.pre {K : Env W X} {c : Code} {x : Ctx} {T : Tgt} {g0 g' : G}
    {base : List Val} {k0 k1 : Conf (S W) (R W X)} {r : Res X} {σ : St W} (hs : Steps K c k0 k1)
    (h : Leaves K c x T g0 g' base k1 r σ) : Leaves K c x T g0 g' base k0 r σ := by
  cases r with
  | val v => exact h
  | raise e => obtain ⟨pe, h1, h2, h3, h4⟩ := h; exact ⟨pe, h1, h2, h3, hs.trans h4⟩
  | brk v => exact hs.trans h
  | nxt v => exact hs.trans h
  | ret v cr =>
    simp only [Leaves] at h ⊢
    split
    · rename_i hc; rw [if_pos hc] at h; obtain ⟨hn, st, h⟩ := h; exact ⟨hn, st, hs.trans h⟩
    · rename_i hc; rw [if_neg hc] at h; exact hs.trans h

theorem Reach.pre {K : Env W X} {c : Code} {x : Ctx} {T : Tgt} {g0 g' : G}
    {base : List Val} {k0 k1 : Conf (S W) (R W X)} {V} {r : Res X} {σ : St W} (hs : Steps K c k0 k1)
    (h : Reach K c x T g0 g' base k1 V r σ) : Reach K c x T g0 g' base k0 V r σ := by
  rcases h with ⟨v, e, h⟩ | h
  · exact .inl ⟨v, e, hs.trans h⟩
  · exact .inr (h.pre hs)

theorem Reach.post {K : Env W X} {c : Code} {x : Ctx} {T : Tgt} {g0 g' : G}
    {base : List Val} {k0 : Conf (S W) (R W X)} {V V'} {r : Res X} {σ : St W}
    (h : Reach K c x T g0 g' base k0 V r σ) (hs : ∀ v, Steps K c (V v σ) (V' v σ)) :
    Reach K c x T g0 g' base k0 V' r σ := by
  rcases h with ⟨v, e, h⟩ | h
  · exact .inl ⟨v, e, h.trans (hs v)⟩
  · exact .inr h

theorem include_late {en : Entry} {pe : Nat} (h : pe ≤ en.start) : en.include pe = false := by
  simp only [Entry.include, Bool.and_eq_false_iff, decide_eq_false_iff_not]; left; omega

theorem include_early {en : Entry} {pe : Nat} (h : en.stop < pe) : en.include pe = false := by
  simp only [Entry.include, Bool.and_eq_false_iff, decide_eq_false_iff_not]; right; omega

/-- The outcome of a part is an outcome of the whole. -/
theorem Leaves.up {K : Env W X} {c : Code} {x : Ctx} {T : Tgt} {g0 g1 g2 g' : G}
    {base : List Val} {k0 : Conf (S W) (R W X)} {r : Res X} {σ : St W} (e0 : Grow g0 g1) (e2 : Grow g2 g')
    (h : Leaves K c x T g1 g2 base k0 r σ) : Leaves K c x T g0 g' base k0 r σ := by
  cases r with
  | val v => exact h
  | raise e =>
    obtain ⟨pe, p1, p2, p3, p4⟩ := h
    have := e0.len; have := e2.len
    refine ⟨pe, by omega, by omega, ?_, p4⟩
    obtain ⟨l, he, hl⟩ := e2.ex
    intro en hen
    rw [he] at hen
    rcases List.mem_append.1 hen with hen | hen
    · exact p3 en hen
    · have := hl en hen
      exact include_late (by omega)
  | brk v => unfold Leaves at h ⊢; rw [e0.loopTop] at h; exact h
  | nxt v => unfold Leaves at h ⊢; rw [e0.loopTop] at h; exact h
  | ret v cr =>
    simp only [Leaves] at h ⊢
    rw [e0.ensured] at h
    split
    · rename_i hc; rw [if_pos hc] at h
      obtain ⟨h1, h2⟩ := h
      refine ⟨?_, h2⟩
      obtain ⟨s, hs⟩ := List.exists_mem_of_ne_nil _ h1
      refine List.ne_nil_of_mem (a := s) ?_
      unfold leftOf at hs ⊢
      split
      · rename_i hk; rw [if_pos hk] at hs; exact e2.mrets _ hs
      · rename_i hk; rw [if_neg hk] at hs; exact e2.rets _ hs
    · rename_i hc; rw [if_neg hc] at h; exact h

theorem Reach.up {K : Env W X} {c : Code} {x : Ctx} {T : Tgt} {g0 g1 g2 g' : G}
    {base : List Val} {k0 : Conf (S W) (R W X)} {V} {r : Res X} {σ : St W} (e0 : Grow g0 g1) (e2 : Grow g2 g')
    (h : Reach K c x T g1 g2 base k0 V r σ) : Reach K c x T g0 g' base k0 V r σ := by
  rcases h with ⟨v, e, h⟩ | h
  · exact .inl ⟨v, e, h⟩
  · exact .inr (h.up e0 e2)

/-! ### The standing assumptions -/

/-- The exception table so far concerns the code so far. -/
def ExB (g : G) : Prop := ∀ en ∈ g.ex, en.stop < g.code.length

theorem ExB.mono {g g' : G} (h : ExB g) (e : Grow g g') : ExB g' := by
  obtain ⟨l, he, hl⟩ := e.ex
  have := e.len
  intro en hen
  rw [he] at hen
  rcases List.mem_append.1 hen with hen | hen
  · have := h en hen; omega
  · exact (hl en hen).2

/-- Nothing overflows. -/
structure Sizes (c : Code) (K : Env W X) : Prop where
  code : c.length < 2 ^ 31
  consts : K.consts.length ≤ 2 ^ 32
  case1 : K.case1.length < 2 ^ 32
  case2 : K.case2.length < 2 ^ 32

/-- … in the variable tables. -/
structure CtxOK (x : Ctx) : Prop where
  depth : x.scopes.length + x.extern.length < 2 ^ 32
  width : ∀ t ∈ visible x.scopes x.extern, t.length < 2 ^ 32

/-- What holds where a piece of code from `g` to `g'` is considered. -/
structure Site' (c : Code) (K : Env W X) (T : Tgt) (g g' : G) : Prop where
  sz : Sizes c K
  len : g'.code.length ≤ c.length
  ex : ExB g
  res : Resolved c g.code.length g' T

/-- … for a part of it. -/
theorem Site'.sub {c : Code} {K : Env W X} {T : Tgt} {g g1 g2 g' : G} (h : Site' c K T g g') (e1 : Grow g g1)
    (e2 : Grow g2 g') : Site' c K T g1 g2 :=
  ⟨h.sz, Nat.le_trans e2.len h.len, h.ex.mono e1, h.res.sub e2 e1.len⟩

/-- An error of an instruction of the whole. -/
theorem Leaves.err {K : Env W X} {c : Code} {x : Ctx} {T : Tgt} {g0 g1 g2 g' : G} {base : List Val}
    {k0 : Conf (S W) (R W X)} {σ : St W} {e : X} {pe : Nat} (hB : ExB g0) (e0 : Grow g0 g1) (h12 : g2.ex = g1.ex)
    (e2 : Grow g2 g') (h1 : g1.code.length < pe) (h2 : pe ≤ g2.code.length)
    (hs : Steps K c k0 (failC K pe e σ)) : Leaves K c x T g0 g' base k0 (.raise e) σ := by
  have := e0.len; have := e2.len
  refine ⟨pe, by omega, by omega, ?_, hs⟩
  obtain ⟨l, he, hl⟩ := e2.ex
  have hB1 := hB.mono e0
  intro en hen
  rw [he, h12] at hen
  rcases List.mem_append.1 hen with hen | hen
  · have := hB1 en hen; exact include_early (by omega)
  · have := hl en hen; exact include_late (by omega)

/-! ### Pieces of code and their meaning -/

/-- A piece of code from `g` to `g'` behaves like `ev`.  `sup lp emp d`: which positions it may be in (in a
`while`; with an empty operand stack; with the operand stack as it was at the start of the loop). -/
def Does (x : Ctx) (g g' : G) (c : Code) (K : Env W X) (T : Tgt)
    (sup : Bool → Bool → Bool → Prop) (ev : Nat → St W → Ans W X)
    (V : List Val → Val → St W → Conf (S W) (R W X)) : Prop :=
  ∀ n emp d base st σ r σ', sup (!loopTop g) emp d → (emp = true → st = []) → (d = true → st = base) →
    ev n σ = some (r, σ') →
    Reach K c x T g g' base (.at g.code.length ⟨st, σ⟩) (V st) r σ'

/-- The configuration behind the code, with or without the value. -/
def Then (g' : G) (uv : Bool) (st : List Val) (v : Val) (σ : St W) : Conf (S W) (R W X) :=
  .at g'.code.length ⟨if uv then v :: st else st, σ⟩

/-- The compiler action `m` produces code that behaves like `ev`. -/
def GenOK (x : Ctx) (m : M Unit) (uv : Bool) (sup : Bool → Bool → Bool → Prop)
    (ev : Env W X → Nat → St W → Ans W X) : Prop :=
  ∀ g u g', m g = .ok (u, g') → ∀ L, Step g L g' L fun c K => ∀ T, Site' c K T g g' →
    Does x g g' c K T sup (ev K) (Then g' uv)

theorem onVal_some {r : Ans W X} {k : Val → St W → Ans W X} {res : Res X} {σ' : St W}
    (h : onVal r k = some (res, σ')) :
    (∃ v σ1, r = some (.val v, σ1) ∧ k v σ1 = some (res, σ')) ∨ (r = some (res, σ') ∧ ∀ v, res ≠ .val v) := by
  unfold onVal at h
  split at h
  · exact .inl ⟨_, _, rfl, h⟩
  · rename_i hne
    exact .inr ⟨h, fun v hv => hne v σ' (by rw [h, hv])⟩

/-- The use of a part whose value is needed to go on. -/
theorem Does.first {x : Ctx} {g0 g1 g2 g' : G} {c : Code} {K : Env W X} {T : Tgt}
    {sup : Bool → Bool → Bool → Prop} {ev : Nat → St W → Ans W X}
    {V : List Val → Val → St W → Conf (S W) (R W X)} (h : Does x g1 g2 c K T sup ev V)
    (e0 : Grow g0 g1) (e2 : Grow g2 g') {n : Nat} {emp d : Bool} {base st : List Val} {σ : St W} {r : Res X}
    {σ' : St W} {k : Val → St W → Ans W X} (hs : sup (!loopTop g0) emp d) (he : emp = true → st = [])
    (hd : d = true → st = base) (hv : onVal (ev n σ) k = some (r, σ')) :
    (∃ v σ1, ev n σ = some (.val v, σ1) ∧ k v σ1 = some (r, σ') ∧
      Steps K c (.at g1.code.length ⟨st, σ⟩) (V st v σ1)) ∨
    Leaves K c x T g0 g' base (.at g1.code.length ⟨st, σ⟩) r σ' := by
  rw [← e0.loopTop] at hs
  rcases onVal_some hv with ⟨v, σ1, h1, h2⟩ | ⟨h1, h2⟩
  · rcases h n emp d base st σ _ _ hs he hd h1 with ⟨v', e', hS⟩ | hL
    · cases e'; exact .inl ⟨v, σ1, h1, h2, hS⟩
    · exact hL.elim
  · rcases h n emp d base st σ _ _ hs he hd h1 with ⟨v', e', hS⟩ | hL
    · exact absurd e' (h2 v')
    · exact .inr (hL.up e0 e2)

/-- The use of a part that decides the outcome. -/
theorem Does.last {x : Ctx} {g0 g1 g2 g' : G} {c : Code} {K : Env W X} {T : Tgt}
    {sup : Bool → Bool → Bool → Prop} {ev : Nat → St W → Ans W X}
    {V : List Val → Val → St W → Conf (S W) (R W X)} (h : Does x g1 g2 c K T sup ev V)
    (e0 : Grow g0 g1) (e2 : Grow g2 g') {n : Nat} {emp d : Bool} {base st : List Val} {σ : St W} {r : Res X}
    {σ' : St W} (hs : sup (!loopTop g0) emp d) (he : emp = true → st = [])
    (hd : d = true → st = base) (hv : ev n σ = some (r, σ')) :
    Reach K c x T g0 g' base (.at g1.code.length ⟨st, σ⟩) (V st) r σ' := by
  rw [← e0.loopTop] at hs
  exact (h n emp d base st σ _ _ hs he hd hv).up e0 e2

theorem ff {P : Prop} : (false = true → P) := by simp

/-! ### Primitive instructions -/

theorem emitM_ex {op : Byte} {args : List Operand} {g g' : G} {u : Unit} (h : emitM op args g = .ok (u, g')) :
    g'.ex = g.ex := by rw [emitM_ok h]

theorem exec_dup (K : Env W X) (a : BitVec 32) (pc : Nat) (s : S W) : execOp K DUP [.o32 a] pc s =
    if a.toNat ≤ s.stack.length then .next ⟨s.stack.take a.toNat ++ s.stack, s.st⟩ else .halt .stuck := rfl

theorem exec_sinkn (K : Env W X) (a : BitVec 32) (pc : Nat) (v : Val) (st : List Val) (σ : St W) :
    execOp K SINKN [.o32 a] pc ⟨v :: st, σ⟩ =
      if a.toNat ≤ st.length then .next ⟨st.take a.toNat ++ v :: st.drop a.toNat, σ⟩ else .halt .stuck := rfl

theorem exec_array (K : Env W X) (a : BitVec 32) (pc : Nat) (s : S W) : execOp K CREATE_ARRAY [.o32 a] pc s =
    if a.toNat ≤ s.stack.length then
      .next ⟨(K.world.mkArray (s.stack.take a.toNat).reverse s.st).1 :: s.stack.drop a.toNat,
        (K.world.mkArray (s.stack.take a.toNat).reverse s.st).2⟩
    else .halt .stuck := rfl

theorem exec_yield (K : Env W X) (a : BitVec 32) (pc : Nat) (s : S W) : execOp K YIELD [.o32 a] pc s =
    if a.toNat ≤ s.stack.length then
      pushE K (pc + 5) (s.stack.drop a.toNat) (K.world.yield_ (s.stack.take a.toNat).reverse s.st)
    else .halt .stuck := rfl

theorem exec_take (K : Env W X) (a : BitVec 32) (pc : Nat) (v : Val) (st : List Val) (σ : St W) :
    execOp K TAKE [.o32 a] pc ⟨v :: st, σ⟩ = .next ⟨(takeVals K σ v a.toNat).reverse ++ st, σ⟩ := rfl

theorem exec_rescue (K : Env W X) (a : BitVec 32) (pc : Nat) (s : S W) : execOp K RESCUE [.o32 a] pc s =
    if a.toNat + 1 ≤ s.stack.length then
      match s.stack.drop a.toNat with
      | v :: st => .next ⟨Value.bool (K.world.rescues v (s.stack.take a.toNat).reverse s.st) :: st, s.st⟩
      | [] => .halt .stuck
    else .halt .stuck := rfl

theorem exec_send (K : Env W X) (m : BitVec 32) (n : BitVec 16) (a b : BitVec 32) (pc : Nat) (s : S W) :
    execOp K OPT_SEND [.o32 m, .o16 n, .o32 a, .o32 b] pc s =
      match s.stack.drop n.toNat with
      | recv :: st => pushE K (pc + 15) st (K.world.call a m recv (s.stack.take n.toNat).reverse s.st)
      | [] => .halt .stuck := rfl

theorem exec_sendN (K : Env W X) (m : BitVec 32) (n : BitVec 16) (a b : BitVec 32) (pc : Nat) (s : S W) :
    execOp K OPT_SEND_N [.o32 m, .o16 n, .o32 a, .o32 b] pc s =
      match s.stack.drop n.toNat with
      | recv :: st => dropE K (pc + 15) st (K.world.call a m recv (s.stack.take n.toNat).reverse s.st)
      | [] => .halt .stuck := rfl

/-- `if !use_value { pop }` at the end. -/
theorem popTail {uv : Bool} {g g' : G} {u : Unit} (L : List Nat) (h : whenM (!uv) pop g = .ok (u, g')) :
    Step (W := W) (X := X) g L g' L (fun c K => ∀ v st σ,
      Steps K c (.at g.code.length ⟨v :: st, σ⟩) (Then g' uv st v σ)) := by
  cases uv with
  | true =>
    obtain ⟨_, rfl⟩ := pureM.1 h
    exact (Step.refl _ _).mono fun c K _ v st σ => Steps.refl _
  | false =>
    refine (emitM_step L h).mono fun c K hA v st σ => ?_
    exact Steps.next K hA (emitM_len h) rfl rfl

/-- `if use_value { dup 1 }`. -/
theorem dupHead {uv : Bool} {g g' : G} {u : Unit} (L : List Nat) (h : whenM uv (dup 1) g = .ok (u, g')) :
    Step (W := W) (X := X) g L g' L (fun c K => ∀ v st σ,
      Steps K c (.at g.code.length ⟨v :: st, σ⟩) (.at g'.code.length ⟨v :: if uv then v :: st else st, σ⟩)) := by
  cases uv with
  | false =>
    obtain ⟨_, rfl⟩ := pureM.1 h
    exact (Step.refl _ _).mono fun c K _ v st σ => Steps.refl _
  | true =>
    refine (emitM_step L h).mono fun c K hA v st σ => ?_
    refine Steps.next K hA (emitM_len h) rfl ?_
    rw [u32, exec_dup, if_pos (by simp)]
    simp

/-- An instruction that may fail, then `if !use_value { pop }`. -/
theorem Reach.eff {K : Env W X} {c : Code} {x : Ctx} {T : Tgt} {g0 g1 g2 g' : G} {base : List Val}
    {k0 : Conf (S W) (R W X)} {uv : Bool} {st : List Val} {eff : Eff W X Val} {r : Res X} {σ' : St W} {pc : Nat}
    (hB : ExB g0) (e0 : Grow g0 g1) (h12 : g2.ex = g1.ex) (e2 : Grow g2 g')
    (h1 : g1.code.length < pc) (h2 : pc = g2.code.length)
    (hs : Steps K c k0 ((pushE K pc st eff).conf g2.code.length))
    (ht : ∀ v σ, Steps K c (.at g2.code.length ⟨v :: st, σ⟩) (Then g' uv st v σ))
    (hv : ofEff eff = some (r, σ')) : Reach K c x T g0 g' base k0 (Then g' uv st) r σ' := by
  rcases eff with ⟨_ | v, σ⟩
  · simp only [ofEff, Option.some.injEq, Prod.mk.injEq] at hv
    obtain ⟨rfl, rfl⟩ := hv
    simp only [pushE, conf_fail] at hs
    exact .inr (Leaves.err hB e0 h12 e2 h1 (by omega) hs)
  · simp only [ofEff, Option.some.injEq, Prod.mk.injEq] at hv
    obtain ⟨rfl, rfl⟩ := hv
    exact .inl ⟨v, rfl, hs.trans (ht v σ)⟩

/-- The same for comparisons. -/
theorem Reach.effB {K : Env W X} {c : Code} {x : Ctx} {T : Tgt} {g0 g1 g2 g' : G} {base : List Val}
    {k0 : Conf (S W) (R W X)} {uv : Bool} {st : List Val} {eff : Eff W X Bool} {r : Res X} {σ' : St W} {pc : Nat}
    (hB : ExB g0) (e0 : Grow g0 g1) (h12 : g2.ex = g1.ex) (e2 : Grow g2 g')
    (h1 : g1.code.length < pc) (h2 : pc = g2.code.length)
    (hs : Steps K c k0 ((pushB K pc st eff).conf g2.code.length))
    (ht : ∀ v σ, Steps K c (.at g2.code.length ⟨v :: st, σ⟩) (Then g' uv st v σ))
    (hv : ofEffB eff = some (r, σ')) : Reach K c x T g0 g' base k0 (Then g' uv st) r σ' := by
  rcases eff with ⟨_ | v, σ⟩
  · simp only [ofEffB, Option.some.injEq, Prod.mk.injEq] at hv
    obtain ⟨rfl, rfl⟩ := hv
    simp only [pushB, conf_fail] at hs
    exact .inr (Leaves.err hB e0 h12 e2 h1 (by omega) hs)
  · simp only [ofEffB, Option.some.injEq, Prod.mk.injEq] at hv
    obtain ⟨rfl, rfl⟩ := hv
    exact .inl ⟨_, rfl, hs.trans (ht _ σ)⟩

theorem toNat_ofNat32 {n : Nat} (h : n < 2 ^ 32) : (BitVec.ofNat 32 n).toNat = n := by
  rw [BitVec.toNat_ofNat, Nat.mod_eq_of_lt h]

end Verif.Codegen
