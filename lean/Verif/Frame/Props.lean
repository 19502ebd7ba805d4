import Verif.Frame.Frames

/-!
# Calls, returns and closures: the properties

C41: variables of closures are shared.  C40: a call that comes back leaves its caller as it was.
The specification is in `Verif/Frame/Spec.lean`.
-/
namespace Verif.Frame
open Verif.Frame.Spec

variable {σ : VM} {α : Mach} {G : Ghost}

/-! ## C41 -/

/-- **C41, with one restriction.**  Take any sequence of pushes, reads and writes of variables at any depth,
calls of methods, builtin functions, blocks and Procs, returns, exceptions, captures of the running frame
(`lambda { }`, `proc { }`, `&block`, `binding`).  What the program sees (all values read from variables,
popped, and `self`) is what it would see if every call had an environment of its own that lives for ever and
is never copied.  In particular two closures made in the same call share its variables, before and after
the call has returned, and closures made in different calls do not.  The only other outcome is a stack
overflow.

Missing for the full property: the body of a Proc must not use the literal block of the method it was
written in (`canYield` in the specification).  There the implementation goes wrong; see
`C41_yield_in_lambda_fails` and `C41_stale_variables_fails` below. -/
theorem C41_closures_share_variables_partial (base : Nat) (hb : 1 ≤ base) (ops : List Op) (α' : Mach)
    (outs : List (Option Nat)) (h : Spec.run Spec.init ops = some (α', outs)) :
    run (initVM base) ops = .error .overflow ∨ ∃ σ', run (initVM base) ops = .ok (σ', outs) := by
  rcases sim_run (init_inv hb) h with h | ⟨σ', _, h, _⟩
  · exact Or.inl h
  · exact Or.inr ⟨σ', h⟩

/-! ### Where the implementation goes wrong -/

/-- The Ruby program
```
def m; $p = lambda { yield }; 0; end        # code 2, the lambda is code 4
def main; x = 7; m { x }; end               # code 1, the block is code 3
def other; y = 9; $p.call; end              # code 5
main; other
```
-/
def danglingBlock : List Op :=
  [.push 100, .callMethod 0 1 [7] true .none, .push 101, .callMethod 0 2 [] true (.lit 3), .createProc 4,
   .push 0, .ret false, .ret false, .pop,
   .push 102, .callMethod 0 5 [9] true .none, .callProc 0 none 0 [] true, .yield 0 [] true, .getDyn 1 0]

/-- the values seen by the program -/
def seen (r : Except Err (VM × List (Option Nat))) : Option (List (Option Nat)) :=
  match r with
  | .ok r => some r.2
  | .error _ => none

/-- **C41 is false of the code** (1).  A block given to a method is recorded as a position in the stack
(`Block::Block`, `vm/args.rs:5-10`).  If the method makes a lambda that yields, and the lambda is called
when the frames are gone, the block runs with the variables of another method: it reads 9, the variable `y`
of `other`, not 7, the variable `x`. -/
theorem C41_yield_in_lambda_fails :
    ((Spec.runFree Spec.init danglingBlock).map (fun r => r.2.getLast?) = some (some (some 7))) ∧
    ((seen (run (initVM 1) danglingBlock)).map (fun os => os.getLast?) = some (some (some 9))) := by
  decide +kernel

/-- The Ruby program
```
def m; $p = lambda { yield }; yield; 0; end           # code 2, the lambda is code 4
def main                                              # code 1
  x = 7
  n = 0
  m { n += 1; if n == 1 then $p.call; x = 55; else $q = lambda { x } end }    # code 3, 6
  x
end
```
without the counter `n`. -/
def staleOuter : List Op :=
  [.push 100, .callMethod 0 1 [7] true .none, .push 101, .callMethod 0 2 [] true (.lit 3), .createProc 4,
   .yield 0 [] true, .callProc 0 none 0 [] true, .yield 0 [] true, .createProc 6,
   .push 0, .ret false, .ret false, .pop, .setDyn 1 0 55, .push 0, .ret false, .ret false, .pop, .getLocal 0]

/-- **C41 is false of the code** (2).  `move_ep_to_heap` (`vm/executor/frame.rs:777-797`) moves the frames
on the way from the captured frame outwards.  Another frame that is running in the same outer frame keeps
the old address of the outer frame.  What it writes is lost: `x` is 7 at the end, not 55. -/
theorem C41_stale_variables_fails :
    ((Spec.runFree Spec.init staleOuter).map (fun r => r.2.getLast?) = some (some (some 55))) ∧
    ((seen (run (initVM 1) staleOuter)).map (fun os => os.getLast?) = some (some (some 7))) := by
  decide +kernel

/-! ### A case that meets the hypotheses -/

/-- The Ruby program
```
def m; yield; end                                              # code 2
def counter                                                    # code 1
  x = 7
  inc = lambda { x += 1 }                                      # code 3
  get = lambda { x }                                           # code 4
  m { x = 20; $r = lambda { x } }                              # code 5, 6
end
counter; inc.call; get.call; $r.call; then a builtin function that gets a block
```
-/
def sharing : List Op :=
  [.push 100, .callMethod 0 1 [7] true .none, .createProc 3, .createProc 4,
   .push 101, .callMethod 0 2 [] true (.lit 5), .yield 0 [3] true, .getLocal 0, .setDyn 1 0 20, .createProc 6,
   .push 0, .ret false, .ret false, .pop, .getLocal 0, .push 0, .ret false, .pop,
   .callProc 0 none 0 [] true, .getDyn 1 0, .setDyn 1 0 21, .push 21, .ret false, .pop,
   .callProc 1 none 0 [] true, .getDyn 1 0, .push 21, .ret true,
   .callProc 2 none 0 [] true, .getDyn 2 0, .push 1, .push 2, .clear, .raise,
   .push 110, .callMethod 0 7 [] false .none, .push 102, .push 5, .callNative 1 (.proc 1), .getLocal 0, .self, .push 8, .iterate 1 [8] true, .getDyn 1 0,
   .push 3, .ret true, .binding, .retNative (some 4), .ret false]

example : (Spec.run Spec.init sharing).map (fun r => r.2.filterMap id) =
    some [0, 1, 3, 2, 0, 20, 0, 20, 21, 21, 21, 21, 5, 102, 21, 3, 3] := by
  decide +kernel

/-! ### Stack overflow -/

theorem run_app {ops1 ops2 : List Op} {σ : VM} {r} (h : run σ (ops1 ++ ops2) = .ok r) :
    ∃ σ1 o1 o2, run σ ops1 = .ok (σ1, o1) ∧ run σ1 ops2 = .ok (r.1, o2) ∧ r.2 = o1 ++ o2 := by
  induction ops1 generalizing σ r with
  | nil => exact ⟨σ, [], r.2, rfl, h, rfl⟩
  | cons op ops ih =>
    simp only [List.cons_append, run, bind, Except.bind] at h
    cases h1 : step σ op with
    | error e => rw [h1] at h; cases h
    | ok x =>
      rw [h1] at h
      dsimp only at h
      cases h2 : run x.1 (ops ++ ops2) with
      | error e => rw [h2] at h; cases h
      | ok y =>
        rw [h2] at h
        cases h
        obtain ⟨σ1, o1, o2, k1, k2, k3⟩ := ih h2
        exact ⟨σ1, x.2 :: o1, o2, by simp only [run, h1, k1, bind, Except.bind], k2, by rw [k3]; rfl⟩

theorem spec_run_app {ops1 ops2 : List Op} {α : Mach} {r} (h : Spec.run α (ops1 ++ ops2) = some r) :
    ∃ α1 o1 o2, Spec.run α ops1 = some (α1, o1) ∧ Spec.run α1 ops2 = some (r.1, o2) ∧ r.2 = o1 ++ o2 := by
  induction ops1 generalizing α r with
  | nil => exact ⟨α, [], r.2, rfl, h, rfl⟩
  | cons op ops ih =>
    simp only [List.cons_append, Spec.run] at h
    cases h1 : Spec.step α op with
    | none => rw [h1] at h; cases h
    | some x =>
      rw [h1] at h
      dsimp only at h
      cases h2 : Spec.run x.1 (ops ++ ops2) with
      | none => rw [h2] at h; cases h
      | some y =>
        rw [h2] at h
        cases h
        obtain ⟨α1, o1, o2, k1, k2, k3⟩ := ih h2
        exact ⟨α1, x.2 :: o1, o2, by simp only [Spec.run, h1, k1], k2, by rw [k3]; rfl⟩

/-- Where a run of the machine overflows the stack. -/
theorem overflow_at {ops : List Op} {α' outs} (h : Inv σ α G) (hs : Spec.run α ops = some (α', outs))
    (ho : run σ ops = .error .overflow) :
    ∃ pre op post σ' o, ops = pre ++ op :: post ∧ run σ pre = .ok (σ', o) ∧
      σ'.base + STACK_SIZE < σ'.sp + op.need := by
  induction ops generalizing σ α G α' outs with
  | nil => cases ho
  | cons op ops ih =>
    unfold Spec.run at hs
    cases h1 : Spec.step α op with
    | none => rw [h1] at hs; cases hs
    | some r =>
    obtain ⟨α1, o⟩ := r
    rw [h1] at hs
    dsimp only at hs
    cases h2 : Spec.run α1 ops with
    | none => rw [h2] at hs; cases hs
    | some r2 =>
    rcases sim h h1 with e1 | ⟨σ1, G1, e1, hi, _⟩
    · refine ⟨[], op, ops, σ, [], rfl, rfl, ?_⟩
      rcases ov_step e1 with h3 | h3
      · exact h3
      · exfalso
        have hr := h.regs
        cases hg : G.gs with
        | nil => rw [hg] at hr; exact hr
        | cons g gs =>
          cases hf : α.frames with
          | nil => rw [hg, hf] at hr; exact hr
          | cons f fs =>
            rw [hg, hf] at hr
            have := h.shape.room g (by rw [hg]; exact List.mem_cons_self ..)
            have := hdr_ge g.ruby
            have := hr.1
            omega
    · cases h3 : run σ1 ops with
      | ok x => simp only [run, e1, h3, bind, Except.bind] at ho; cases ho
      | error e =>
        simp only [run, e1, h3, bind, Except.bind, Except.error.injEq] at ho
        subst ho
        obtain ⟨pre, op', post, σ', o', k1, k2, k3⟩ := ih hi h2 h3
        exact ⟨op :: pre, op', post, σ', o :: o', by rw [k1]; rfl,
          by simp only [run, e1, k2, bind, Except.bind], k3⟩

/-- **C41, stack overflow.**  The stack overflows only when it is full: a step fails only if the words it
needs above the top of the stack do not fit into the `STACK_SIZE` words of the stack.  A call needs the
variables of the called code and at most ten words besides. -/
theorem C41_overflow_only_when_full (base : Nat) (hb : 1 ≤ base) (ops : List Op) (α' : Mach)
    (outs : List (Option Nat)) (h : Spec.run Spec.init ops = some (α', outs))
    (ho : run (initVM base) ops = .error .overflow) :
    ∃ pre op post σ o, ops = pre ++ op :: post ∧ run (initVM base) pre = .ok (σ, o) ∧
      σ.base + STACK_SIZE < σ.sp + op.need :=
  overflow_at (init_inv hb) h ho

/-- `n` pushes -/
theorem run_pushes (n : Nat) : ∀ σ : VM, σ.base + STACK_SIZE < σ.sp + n →
    σ.sp ≤ σ.base + STACK_SIZE → run σ (List.replicate n (.push 0)) = .error .overflow := by
  induction n with
  | zero => intro σ h1 h2; omega
  | succ n ih =>
    intro σ h1 h2
    simp only [List.replicate_succ, run]
    by_cases h3 : σ.base + STACK_SIZE ≤ σ.sp
    · have : step σ (.push 0) = .error .overflow := by
        simp only [step, VM.push, bind, Except.bind]
        rw [if_neg (by omega)]
      rw [this]; rfl
    · have : ∃ σ', step σ (.push 0) = .ok (σ', none) ∧ σ'.sp = σ.sp + 1 ∧ σ'.base = σ.base := by
        simp only [step, VM.push, bind, Except.bind]
        rw [if_pos (by omega)]
        exact ⟨_, rfl, rfl, rfl⟩
      obtain ⟨σ', k1, k2, k3⟩ := this
      rw [k1]
      simp only [bind, Except.bind]
      rw [ih σ' (by omega) (by omega)]

theorem spec_pushes (n : Nat) : ∀ α : Mach, ∀ f rest E, α.frames = f :: rest → α.envs[f.env]? = some E →
    ∃ r, Spec.run α (List.replicate n (.push 0)) = some r := by
  induction n with
  | zero => intro α f rest E _ _; exact ⟨_, rfl⟩
  | succ n ih =>
    intro α f rest E hf hE
    simp only [List.replicate_succ, Spec.run]
    have : Spec.step α (.push 0) = some ({ α with frames := { f with ops := 0 :: f.ops } :: rest }, none) := by
      unfold Spec.step; rw [hf]; dsimp only; rw [hE]
    rw [this]
    obtain ⟨r, hr⟩ := ih { α with frames := { f with ops := 0 :: f.ops } :: rest } _ rest E rfl hE
    dsimp only
    rw [hr]
    exact ⟨_, rfl⟩

/-- The hypotheses are met by 9000 pushes. -/
example : (∃ α' outs, Spec.run Spec.init (List.replicate 9000 (.push 0)) = some (α', outs)) ∧
    run (initVM 1) (List.replicate 9000 (.push 0)) = .error .overflow := by
  constructor
  · obtain ⟨r, hr⟩ := spec_pushes 9000 Spec.init _ _ _ rfl rfl
    exact ⟨r.1, r.2, hr⟩
  · apply run_pushes <;> simp [initVM, STACK_SIZE]

/-! ## C40 -/

/-- The state `σ'` after a call is the state `σ` before it, except that the `taken` operands of the call are
gone and the value `res`, if any, is on the stack. -/
structure Restored (σ σ' : VM) (taken : Nat) (res : Option Nat) : Prop where
  /-- the running frame -/
  cfp : σ'.cfp = σ.cfp
  /-- and its header (whether it is a frame of Ruby code, how many variables; the last bit says that its own
  caller does not want its value and means nothing for a builtin function) -/
  flag : ∀ n r d, σ.mem (σ.cfp + EV_FLAG) = .flag n r d →
    ∃ d', σ'.mem (σ.cfp + EV_FLAG) = .flag n r d' ∧ (r = true → d' = d)
  /-- `self` -/
  self : σ'.mem (σ.cfp - 1) = σ.mem (σ.cfp - 1)
  /-- position in the code -/
  code : ∀ n d, σ.mem (σ.cfp + EV_FLAG) = .flag n true d → σ'.pc = σ.pc ∧ σ'.iseq = σ.iseq
  /-- operands -/
  sp : σ'.sp + taken = σ.sp + if res.isSome then 1 else 0
  operands : ∀ n r d, σ.mem (σ.cfp + EV_FLAG) = .flag n r d → ∀ a, σ.cfp + (if r then 8 else 3) ≤ a →
    a + taken < σ.sp → σ'.mem a = σ.mem a
  result : ∀ v, res = some v → σ'.mem (σ.sp - taken) = .val v

/-- What the caller gets from the last step `last` of a call, made in state `σ`: `res` is pushed, `o` goes to
the Rust code that made the call. -/
def Delivers (σ : VM) (use : Bool) (last : Op) (o : Option Nat) (res : Option Nat) : Prop :=
  match last with
  | .ret true => res = none ∧ ∃ v, σ.mem (σ.sp - 1) = .val v ∧ o = some v
  | .ret false => o = none ∧ ∃ v, σ.mem (σ.sp - 1) = .val v ∧ res = if use then some v else none
  | .retNative v => o = none ∧ res = v
  | .raise => o = none ∧ res = none
  | _ => False

theorem spec_ret {toRust α' o} (h : Spec.step α (.ret toRust) = some (α', o)) :
    ∃ f rest v ops, α.frames = f :: rest ∧ f.ops = v :: ops ∧ o = if toRust then some v else none := by
  unfold Spec.step at h
  cases hf : α.frames with
  | nil => rw [hf] at h; cases h
  | cons f rest =>
  rw [hf] at h
  dsimp only at h
  split at h
  · cases h
  · split at h
    · rename_i ho
      refine ⟨f, _, _, _, rfl, ho, ?_⟩
      split at h
      · cases h; simp_all
      · split at h <;> cases h <;> simp_all
    · cases h

theorem spec_raise {α' o} (h : Spec.step α .raise = some (α', o)) : o = none := by
  unfold Spec.step at h
  split at h
  · cases h
  · split at h
    · cases h
    · dsimp only at h
      split at h
      · cases h; rfl
      · cases h

theorem spec_retNative {v α' o} (h : Spec.step α (.retNative v) = some (α', o)) : o = none := by
  unfold Spec.step at h
  split at h
  · cases h
  · split at h
    · cases h
    · dsimp only at h
      split at h
      · split at h <;> cases h <;> rfl
      · cases h

theorem Inv.restored {σ σ' : VM} {α α' : Mach} {G G' : Ghost} (h : Inv σ α G) (h' : Inv σ' α' G')
    {f rest g gt k} {res : Option Nat} (hf : α.frames = f :: rest) (hg : G.gs = g :: gt) (hg' : G'.gs = g :: gt)
    (hk : k ≤ f.ops.length) (hf' : α'.frames = { f with ops := res.toList ++ f.ops.drop k } :: rest)
    (hsk : ∃ l, G'.sk = G.sk ++ l) : Restored σ σ' k res := by
  have ho := h.ops
  have ho' := h'.ops
  have hr := h.regs
  have hr' := h'.regs
  rw [hf, hg] at ho hr
  rw [hf', hg'] at ho' hr'
  obtain ⟨a1, a2, a3, a4, a5, ⟨d, a6, a7⟩, a8⟩ := ho
  obtain ⟨b1, b2, b3, b4, b5, ⟨d', b6, b7⟩, b8⟩ := ho'
  obtain ⟨c1, c2, c3⟩ := hr
  obtain ⟨e1, e2, e3⟩ := hr'
  have hm : g ∈ G.gs := by rw [hg]; exact List.mem_cons_self ..
  have hm' : g ∈ G'.gs := by rw [hg']; exact List.mem_cons_self ..
  obtain ⟨S, hS, hS1, hS2⟩ := h.shape.frame g hm
  have hS' : G'.sk[g.env]? = some S := by
    obtain ⟨l, hl⟩ := hsk
    rw [hl, List.getElem?_append_left (List.getElem?_eq_some_iff.1 hS).1]; exact hS
  dsimp only at b4 b5 b7 e3
  simp only [List.length_append, List.length_drop] at b4
  constructor
  · omega
  · intro n r d0 h0
    rw [c1, a6] at h0
    cases h0
    rw [c1, b6]
    exact ⟨d', rfl, fun hr => by rw [a7 hr, b7 hr]⟩
  · rw [c1, (h.ctl g hm).1 S hS, (h'.ctl g hm').1 S hS']
  · intro n d0 h0
    rw [c1, a6] at h0
    injection h0 with _ h1 _
    obtain ⟨k1, S1, k2, k3⟩ := c3 h1
    obtain ⟨k4, S2, k5, k6⟩ := e3 h1
    rw [hS] at k2
    rw [hS'] at k5
    cases k2; cases k5
    exact ⟨k4.trans k1.symm, k6.trans k3.symm⟩
  · cases res <;> simp at b4 ⊢ <;> omega
  · intro n r d0 h0 a ha ha2
    rw [c1, a6] at h0
    injection h0 with _ h1 _
    rw [c1] at ha
    have hh : (if r then 8 else 3) = hdr g.ruby := by rw [h1]; cases r <;> rfl
    rw [hh] at ha
    obtain ⟨i, rfl⟩ := Nat.exists_eq_add_of_le ha
    have hi : i + k < f.ops.length := by omega
    have hi' : i < f.ops.reverse.length := by simp; omega
    have h2 : f.ops.reverse[i]? = some f.ops.reverse[i] := List.getElem?_eq_getElem hi'
    rw [a5 i _ h2]
    refine b5 i _ ?_
    rw [← h2]
    have h3 : f.ops.reverse[i]? = (f.ops.take k ++ f.ops.drop k).reverse[i]? := by
      rw [List.take_append_drop]
    rw [h3, List.reverse_append, List.reverse_append, List.getElem?_append_left (by simp; omega),
      List.getElem?_append_left (by simp; omega)]
  · intro v hv
    subst hv
    have h2 := b5 (f.ops.length - k) v (by
      rw [List.reverse_append, List.getElem?_append_right (by simp)]
      simp)
    rw [← h2]
    congr 1
    omega

/-- **C40.**  Take any run up to a state `σ`, then a call of a method, builtin function, block or Proc
(`call`), then any steps `body` during which the call is not left (`depth 1 body = some 1`: whatever it calls
has come back), then the return or exception `last` that leaves it.  Then the caller is as it was
(`Restored`): the frame, its header and `self`, the position in the code, the operand stack without the
operands of the call and with the result, if it is wanted (`Delivers`).  The caller's variables have the
values they had, unless code outside a block's own variables is written to (`setDyn`, an assignment in a
block to a variable around it); for what is read then, see `C41_closures_share_variables_partial`. -/
theorem C40_call_returns_partial (base : Nat) (hb : 1 ≤ base) (pre body : List Op) (call last : Op) (k : Nat)
    (use : Bool) (α' : Mach) (outs o0 o1 : List (Option Nat)) (o : Option Nat) (σ σ1 σ' : VM)
    (hcall : call.kind = .open k use) (hlast : last.kind = .close) (hbody : depth 1 body = some 1)
    (hs : Spec.run Spec.init (pre ++ (call :: body ++ [last])) = some (α', outs))
    (h0 : run (initVM base) pre = .ok (σ, o0)) (h1 : run σ (call :: body) = .ok (σ1, o1))
    (h2 : step σ1 last = .ok (σ', o)) :
    ∃ res, Restored σ σ' k res ∧ Delivers σ1 use last o res ∧
      ((∀ op ∈ body, ∀ j i v, op ≠ .setDyn j i v) → ∀ n r d, σ.mem (σ.cfp + EV_FLAG) = .flag n r d →
        ∀ i, i < n → σ'.mem (σ'.lfp + i) = σ.mem (σ.lfp + i)) := by
  obtain ⟨α0, p0, p1, s0, s1, _⟩ := spec_run_app hs
  obtain ⟨α2, p2, p3, s2, s3, _⟩ := spec_run_app s1
  -- the state before the call
  rcases sim_run (init_inv hb) s0 with e | ⟨σx, G, e, hi⟩
  · rw [h0] at e; cases e
  rw [h0] at e
  cases e
  -- the call
  unfold Spec.run at s2
  cases hc : Spec.step α0 call with
  | none => rw [hc] at s2; cases s2
  | some r =>
  obtain ⟨αc, oc⟩ := r
  rw [hc] at s2
  dsimp only at s2
  cases hb1 : Spec.run αc body with
  | none => rw [hb1] at s2; cases s2
  | some r2 =>
  obtain ⟨αd, ob⟩ := r2
  rw [hb1] at s2
  simp only [Option.some.injEq, Prod.mk.injEq] at s2
  obtain ⟨rfl, rfl⟩ := s2
  rcases sim hi hc with e | ⟨σc, Gc, ec, hic, hpc⟩
  · simp only [run, e, bind, Except.bind] at h1; cases h1
  obtain ⟨⟨f, rest, hf, hk⟩, l, hsk, henv⟩ := step_frames hc
  rw [hcall] at hk hpc
  dsimp only at hk hpc
  obtain ⟨hk1, n, hfc, hnu⟩ := hk
  obtain ⟨y, hy⟩ := hpc
  cases hg : G.gs with
  | nil => have := hi.regs; rw [hg] at this; exact this.elim
  | cons g gt =>
  have hrb : ∃ ob', run σc body = .ok (σ1, ob') := by
    simp only [run, ec, bind, Except.bind] at h1
    cases h3 : run σc body with
    | error e => rw [h3] at h1; cases h1
    | ok x => rw [h3] at h1; cases h1; exact ⟨_, rfl⟩
  obtain ⟨ob', hrb⟩ := hrb
  have hob : ob' = ob := by
    rcases sim_run hic hb1 with e | ⟨σx, Gx, e, _⟩
    · rw [hrb] at e; cases e
    · rw [hrb] at e; cases e; rfl
  subst hob
  obtain ⟨Gd, xs, f', ys, y', hid, hfd, hxs, hfu, hgd, hys, ⟨l2, hskd⟩, hvar⟩ :=
    body_ok (xs := []) (ys := []) (gt := g :: gt) hic hb1 hbody hfc rfl (by rw [hy, hg]; rfl) rfl hrb
  have : xs = [] := List.eq_nil_of_length_eq_zero (by omega)
  subst this
  have : ys = [] := List.eq_nil_of_length_eq_zero (by omega)
  subst this
  -- the return
  unfold Spec.run at s3
  cases hl : Spec.step αd last with
  | none => rw [hl] at s3; cases s3
  | some r =>
  obtain ⟨αe, oe⟩ := r
  rw [hl] at s3
  simp only [Spec.run, Option.some.injEq, Prod.mk.injEq] at s3
  obtain ⟨rfl, rfl⟩ := s3
  rcases sim hid hl with e | ⟨σe, Ge, ee, hie, hpe⟩
  · rw [h2] at e; cases e
  rw [h2] at ee
  cases ee
  obtain ⟨⟨f1, rest1, hf1, hk⟩, l3, hsk3, henv3⟩ := step_frames hl
  rw [hlast] at hk hpe
  dsimp only at hk hpe
  obtain ⟨g1, rest2, hr1, hfe⟩ := hk
  simp only [List.nil_append] at hfd hgd
  rw [hf1] at hfd
  simp only [List.cons.injEq] at hfd
  obtain ⟨rfl, hfd⟩ := hfd
  rw [hr1] at hfd
  simp only [List.cons.injEq] at hfd
  obtain ⟨rfl, rfl⟩ := hfd
  rw [hgd] at hpe
  simp only [List.tail_cons] at hpe
  have hskG : ∃ l, Ge.sk = G.sk ++ l := by
    refine ⟨l ++ (l2 ++ l3), ?_⟩
    rw [← hie.sk, hsk3, hid.sk, hskd, ← hic.sk, hsk, hi.sk]; simp
  have hvars : ((∀ op ∈ body, ∀ j i v, op ≠ .setDyn j i v) → ∀ n r d,
      σ.mem (σ.cfp + EV_FLAG) = .flag n r d → ∀ i, i < n → σ'.mem (σ'.lfp + i) = σ.mem (σ.lfp + i)) := by
    intro hno n0 r0 d0 hfl i hin
    have hm : g ∈ G.gs := by rw [hg]; exact List.mem_cons_self ..
    have hm' : g ∈ Ge.gs := by rw [hpe]; exact List.mem_cons_self ..
    obtain ⟨S, hS, hS1, hS2⟩ := hi.shape.frame g hm
    rw [← hi.sk, List.getElem?_map, Option.map_eq_some_iff] at hS
    obtain ⟨E, hE, rfl⟩ := hS
    have hE2 : αe.envs[g.env]? = some E := by
      have q1 : αc.envs[g.env]? = some E := by
        refine henv (fun j i v hc => ?_) g.env E hE ?_
        · rw [hc] at hcall; cases hcall
        · rintro ⟨i, v, hc⟩; rw [hc] at hcall; cases hcall
      have q2 := hvar hno g (List.mem_cons_self ..) E q1
      refine henv3 (fun j i v hc => ?_) g.env E q2 ?_
      · rw [hc] at hlast; cases hlast
      · rintro ⟨i, v, hc⟩; rw [hc] at hlast; cases hlast
    have ho := hi.ops
    have hr := hi.regs
    have hr' := hie.regs
    rw [hf, hg] at ho hr
    rw [hfe, hpe] at hr'
    obtain ⟨_, _, _, _, _, ⟨d1, a6, _⟩, _⟩ := ho
    obtain ⟨c1, c2, _⟩ := hr
    obtain ⟨e1, e2, _⟩ := hr'
    rw [c1, a6] at hfl
    injection hfl with h3 _ _
    have hv := hi.envs g.env E hE (Or.inr ⟨g, hm, rfl⟩)
    have hv' := hie.envs g.env E hE2 (Or.inr ⟨g, hm', rfl⟩)
    have hlen : E.vars.length = g.n := hS1
    have hil : i < E.vars.length := by omega
    have q1 := hv.vars i _ (List.getElem?_eq_getElem hil)
    have q2 := hv'.vars i _ (List.getElem?_eq_getElem hil)
    rw [show σ.lfp + i = G.loc g.env - E.vars.length - 1 + i by omega,
      show σ'.lfp + i = Ge.loc g.env - E.vars.length - 1 + i by omega, q1, q2]
  -- the result
  have htop : ∀ v ops, f1.ops = v :: ops → σ1.mem (σ1.sp - 1) = .val v := by
    intro v ops hv
    have ho := hid.ops
    rw [hf1, hgd] at ho
    obtain ⟨_, _, _, a4, a5, _, _⟩ := ho
    rw [hv] at a4 a5
    have := a5 ops.length v (by simp)
    rw [← this]
    simp only [List.length_cons] at a4
    congr 1
    omega
  have fin : ∀ res : Option Nat, Spec.left f1 last = res.toList → Restored σ σ' k res := by
    intro res hres
    refine hi.restored hie hf hg hpe hk1 ?_ hskG
    rw [hfe, hres]
  have hnu' : f1.use = use := hfu.trans hnu
  cases last with
  | ret toRust =>
    obtain ⟨f2, rest3, v, ops, q1, q2, q3⟩ := spec_ret hl
    rw [hf1] at q1
    cases q1
    cases toRust with
    | true => exact ⟨none, fin none rfl, ⟨rfl, v, htop v ops q2, q3⟩, hvars⟩
    | false =>
      refine ⟨if use then some v else none, fin _ ?_, ⟨q3, v, htop v ops q2, rfl⟩, hvars⟩
      simp only [Spec.left, Bool.false_eq_true, if_false, hnu', q2]
      cases use <;> rfl
  | raise => exact ⟨none, fin none rfl, ⟨spec_raise hl, rfl⟩, hvars⟩
  | retNative v => exact ⟨v, fin v rfl, ⟨spec_retNative hl, rfl⟩, hvars⟩
  | _ => cases hlast

/-! ### A case that meets the hypotheses -/

/-- In the program `sharing`, the call of `m` with a block: four steps come before it, and in it the block is
called, writes a variable of `counter` and makes a lambda, so that the caller's variables move to the heap. -/
example : sharing = sharing.take 5 ++ (Op.callMethod 0 2 [] true (.lit 5) ::
      [.yield 0 [3] true, .getLocal 0, .setDyn 1 0 20, .createProc 6, .push 0, .ret false] ++ [.ret false]) ++
      sharing.drop 13 ∧
    (Op.callMethod 0 2 [] true (.lit 5)).kind = .open 1 true ∧ (Op.ret false).kind = .close ∧
    depth 1 [.yield 0 [3] true, .getLocal 0, .setDyn 1 0 20, .createProc 6, .push 0, .ret false] = some 1 ∧
    (Spec.run Spec.init (sharing.take 13)).isSome ∧
    (seen (run (initVM 1) (sharing.take 13))).isSome :=
  ⟨by decide, rfl, rfl, rfl, by decide +kernel, by decide +kernel⟩

end Verif.Frame
