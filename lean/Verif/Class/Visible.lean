/-! # C126: which methods may be called

The body of a class or module with `def`, `public`, `private`, `protected` and `module_function`, and the calls that are
possible afterwards. -/
namespace Verif.Class.Visible

/-! ## Model -/

/-- Visibility of a method, in Ruby. -/
inductive Vis
  | public_ | private_ | protected_
  deriving DecidableEq, Repr

/-- A statement in the body of a class or module: `def n … end` with the definition `d`; `public`, `private`, `protected`
alone and with names; `module_function` alone and with names. -/
inductive Stmt
  | def_ (n d : Nat)
  | vis (v : Vis)
  | vis_names (v : Vis) (ns : List Nat)
  | module_function
  | module_function_names (ns : List Nat)
  deriving DecidableEq, Repr

/-- What a body changes: the method tables of the class and of its singleton class, and the flag `module_function` of the
frame (vm/executor/frame.rs:285-293, 759-767). -/
structure State where
  methods : Nat → Option Nat
  singleton : Nat → Option Nat
  flag : Bool

/-- An entry of a method table (`add_method`). -/
def put (t : Nat → Option Nat) (n d : Nat) : Nat → Option Nat := fun k => if k = n then some d else t k

/-- The methods that a class finds: its own, and then those above it, `up`.  Simplified: what is above does not change. -/
def find (up : Nat → Option Nat) (t : Nat → Option Nat) (n : Nat) : Option Nat :=
  match t n with
  | some d => some d
  | none => up n

/-- `DEF_METHOD` (vm/executor/opt_core.rs:527-537, vm/executor.rs:798-815). -/
def def_method (s : State) (n d : Nat) : State :=
  let s := { s with methods := put s.methods n d }
  if s.flag then { s with singleton := put s.singleton n d } else s

/-- The loop of `module_function` (builtin/module.rs:358-362); `false`: an unknown name ended it. -/
def copy_names (up : Nat → Option Nat) (s : State) : List Nat → State × Bool
  | [] => (s, true)
  | n :: ns => match find up s.methods n with
    | some d => copy_names up { s with singleton := put s.singleton n d } ns
    | none => (s, false)

/-- `Module#module_function` (builtin/module.rs:352-365). -/
def module_function (up : Nat → Option Nat) (s : State) (ns : List Nat) : State × Bool :=
  if ns.length = 0 then ({ s with flag := true }, true) else copy_names up s ns

/-- `public`, `private` and `protected` (builtin/module.rs:471-481). -/
def visibility (s : State) (_ : Vis) (_ : List Nat) : State := s

/-- One statement. -/
def step (up : Nat → Option Nat) (s : State) : Stmt → State × Bool
  | .def_ n d => (def_method s n d, true)
  | .vis v => (visibility s v [], true)
  | .vis_names v ns => (visibility s v ns, true)
  | .module_function => module_function up s []
  | .module_function_names ns => module_function up s ns

/-- A body, up to the first error. -/
def run (up : Nat → Option Nat) (s : State) : List Stmt → State × Bool
  | [] => (s, true)
  | x :: r => match step up s x with
    | (s, true) => run up s r
    | (s, false) => (s, false)

/-- A new class or module, at the beginning of its body. -/
def new : State := { methods := fun _ => none, singleton := fun _ => none, flag := false }

/-- The definition that a call `obj.n` or, with `own`, a call `n` in a method of `obj` runs; `none`: NoMethodError
(`find_method`, globals/method.rs).  The code asks only for the name. -/
def call (up : Nat → Option Nat) (s : State) (_own : Bool) (n : Nat) : Option Nat := find up s.methods n

/-- The definition that `M.n` runs; `sup` are the methods of what is above the singleton class. -/
def call_singleton (sup : Nat → Option Nat) (s : State) (n : Nat) : Option Nat := find sup s.singleton n

/-! ## Specification -/

/-- How Ruby treats the next `def`. -/
inductive Mode
  | vis (v : Vis)
  | module_function
  deriving DecidableEq, Repr

/-- The methods of a class in Ruby, with their visibility. -/
structure RState where
  methods : Nat → Option (Nat × Vis)
  singleton : Nat → Option Nat
  mode : Mode

/-- The method that Ruby finds. -/
def ruby_find (up t : Nat → Option (Nat × Vis)) (n : Nat) : Option (Nat × Vis) :=
  match t n with
  | some d => some d
  | none => up n

/-- A method with another visibility. -/
def ruby_put (t : Nat → Option (Nat × Vis)) (n : Nat) (d : Nat × Vis) : Nat → Option (Nat × Vis) :=
  fun k => if k = n then some d else t k

/-- `private :a, :b` in Ruby: a NameError for an unknown method. -/
def ruby_names (up : Nat → Option (Nat × Vis)) (v : Vis) (s : RState) : List Nat → RState × Bool
  | [] => (s, true)
  | n :: ns => match ruby_find up s.methods n with
    | some d => ruby_names up v { s with methods := ruby_put s.methods n (d.1, v) } ns
    | none => (s, false)

/-- `module_function :a, :b` in Ruby: a copy in the singleton class; the method itself becomes private. -/
def ruby_copy (up : Nat → Option (Nat × Vis)) (s : RState) : List Nat → RState × Bool
  | [] => (s, true)
  | n :: ns => match ruby_find up s.methods n with
    | some d => ruby_copy up { s with methods := ruby_put s.methods n (d.1, .private_),
                                      singleton := put s.singleton n d.1 } ns
    | none => (s, false)

/-- One statement in Ruby. -/
def ruby_step (up : Nat → Option (Nat × Vis)) (s : RState) : Stmt → RState × Bool
  | .def_ n d => match s.mode with
    | .vis v => ({ s with methods := ruby_put s.methods n (d, v) }, true)
    | .module_function => ({ s with methods := ruby_put s.methods n (d, .private_), singleton := put s.singleton n d }, true)
  | .vis v => ({ s with mode := .vis v }, true)
  | .vis_names v ns => ruby_names up v s ns
  | .module_function => ({ s with mode := .module_function }, true)
  | .module_function_names ns => ruby_copy up s ns

/-- A body in Ruby. -/
def ruby_run (up : Nat → Option (Nat × Vis)) (s : RState) : List Stmt → RState × Bool
  | [] => (s, true)
  | x :: r => match ruby_step up s x with
    | (s, true) => ruby_run up s r
    | (s, false) => (s, false)

/-- A new class in Ruby. -/
def ruby_new : RState := { methods := fun _ => none, singleton := fun _ => none, mode := .vis .public_ }

/-- Calls in Ruby: from outside only public methods, on oneself all.  (Protected methods are, from outside, like private
ones.) -/
def ruby_call (up : Nat → Option (Nat × Vis)) (s : RState) (own : Bool) (n : Nat) : Option Nat :=
  match ruby_find up s.methods n with
  | some (d, v) => if own ∨ v = .public_ then some d else none
  | none => none

/-- `M.n` in Ruby. -/
def ruby_call_singleton (sup : Nat → Option Nat) (s : RState) (n : Nat) : Option Nat :=
  match s.singleton n with
  | some d => some d
  | none => sup n

/-- The methods above, without their visibility. -/
def plain (up : Nat → Option (Nat × Vis)) (n : Nat) : Option Nat := (up n).map (·.1)

/-- After `module_function` alone there is no `public`, `private` or `protected` alone, and `module_function` with names has
names. -/
def Tidy (b : List Stmt) : Prop :=
  b.Pairwise (fun x y => x = .module_function → ∀ v, y ≠ .vis v) ∧ .module_function_names [] ∉ b ∧
    ∀ v, .vis_names v [] ∉ b

/-! ## Helpers -/

/-- The state of the machine is that of Ruby without visibility. -/
structure Same (up : Nat → Option (Nat × Vis)) (s : State) (r : RState) : Prop where
  methods : ∀ n, find (plain up) s.methods n = (ruby_find up r.methods n).map (·.1)
  singleton : s.singleton = r.singleton
  flag : s.flag = true ↔ r.mode = .module_function

theorem find_put (up t : Nat → Option Nat) (n d k : Nat) :
    find up (put t n d) k = if k = n then some d else find up t k := by
  by_cases h : k = n <;> simp [find, put, h]

theorem ruby_find_put (up t : Nat → Option (Nat × Vis)) (n k : Nat) (d : Nat × Vis) :
    ruby_find up (ruby_put t n d) k = if k = n then some d else ruby_find up t k := by
  by_cases h : k = n <;> simp [ruby_find, ruby_put, h]

theorem names_same {up : Nat → Option (Nat × Vis)} {v : Vis} : ∀ {ns : List Nat} {s : State} {r r' : RState},
    Same up s r → ruby_names up v r ns = (r', true) → Same up s r' := by
  intro ns
  induction ns with
  | nil => intro s r r' h e; cases e; exact h
  | cons n ns ih =>
    intro s r r' h e
    simp only [ruby_names] at e
    split at e
    · rename_i d hd
      refine ih ?_ e
      refine ⟨fun k => ?_, h.singleton, h.flag⟩
      rw [ruby_find_put]
      by_cases hk : k = n
      · subst hk; rw [if_pos rfl, h.methods, hd]; rfl
      · rw [if_neg hk, h.methods]
    · cases e

theorem copy_same {up : Nat → Option (Nat × Vis)} : ∀ {ns : List Nat} {s : State} {r r' : RState}
    {t : Bool}, Same up s r → ruby_copy up r ns = (r', t) → ∃ s', copy_names (plain up) s ns = (s', t) ∧ Same up s' r' := by
  intro ns
  induction ns with
  | nil => intro s r r' t h e; cases e; exact ⟨s, rfl, h⟩
  | cons n ns ih =>
    intro s r r' t h e
    simp only [ruby_copy] at e
    split at e
    · rename_i d hd
      have hf : find (plain up) s.methods n = some d.1 := by rw [h.methods, hd]; rfl
      simp only [copy_names, hf]
      refine ih ?_ e
      refine ⟨fun k => ?_, by dsimp only; rw [h.singleton], h.flag⟩
      dsimp only
      rw [ruby_find_put]
      by_cases hk : k = n
      · subst hk; rw [if_pos rfl, hf]; rfl
      · rw [if_neg hk, h.methods]
    · rename_i hd
      have hf : find (plain up) s.methods n = none := by rw [h.methods, hd]; rfl
      cases e
      exact ⟨s, by simp only [copy_names, hf], h⟩

theorem copy_flag {up : Nat → Option Nat} : ∀ {ns : List Nat} {s s' : State} {t : Bool},
    copy_names up s ns = (s', t) → s'.flag = s.flag := by
  intro ns
  induction ns with
  | nil => intro s s' t e; cases e; rfl
  | cons n ns ih =>
    intro s s' t e
    simp only [copy_names] at e
    split at e
    · exact (ih e).trans rfl
    · cases e; rfl

theorem step_same {up : Nat → Option (Nat × Vis)} {s : State} {r r' : RState} {x : Stmt} {t : Bool} (h : Same up s r)
    (hv : s.flag = true → ∀ v, x ≠ .vis v) (hx : x ≠ .module_function_names []) (hn : t = true ∨ ∀ v ns, x ≠ .vis_names v ns)
    (e : ruby_step up r x = (r', t)) :
    ∃ s', step (plain up) s x = (s', t) ∧ Same up s' r' ∧
      (s'.flag = true → s.flag = true ∨ x = .module_function) := by
  cases x with
  | def_ n d =>
    by_cases hf : s.flag = true
    · have hm := h.flag.1 hf
      simp only [ruby_step, hm] at e
      cases e
      refine ⟨{ s with methods := put s.methods n d, singleton := put s.singleton n d }, by
        simp only [step, def_method]; rw [if_pos hf], ⟨fun k => ?_, by dsimp only; rw [h.singleton], ?_⟩, fun _ => .inl hf⟩
      · dsimp only
        rw [find_put, ruby_find_put]
        by_cases hk : k = n
        · rw [if_pos hk, if_pos hk]; rfl
        · rw [if_neg hk, if_neg hk, h.methods]
      · exact ⟨fun _ => rfl, fun _ => hf⟩
    · cases hm : r.mode with
      | module_function => exact absurd (h.flag.2 hm) hf
      | vis v =>
        simp only [ruby_step, hm] at e
        cases e
        refine ⟨{ s with methods := put s.methods n d }, by
          simp only [step, def_method]; rw [if_neg hf], ⟨fun k => ?_, h.singleton, ?_⟩, fun q => absurd q hf⟩
        · dsimp only
          rw [find_put, ruby_find_put]
          by_cases hk : k = n
          · rw [if_pos hk, if_pos hk]; rfl
          · rw [if_neg hk, if_neg hk, h.methods]
        · exact ⟨fun q => absurd q hf, fun q => by cases q⟩
  | vis v =>
    have hf : ¬ s.flag = true := fun q => hv q v rfl
    cases e
    exact ⟨s, rfl, ⟨h.methods, h.singleton, fun q => absurd q hf, fun q => by cases q⟩, fun q => .inl q⟩
  | vis_names v ns =>
    rcases hn with rfl | hn
    · exact ⟨s, rfl, names_same h e, fun q => .inl q⟩
    · exact absurd rfl (hn v ns)
  | module_function =>
    cases e
    exact ⟨{ s with flag := true }, rfl, ⟨h.methods, h.singleton, fun _ => rfl, fun _ => rfl⟩, fun _ => .inr rfl⟩
  | module_function_names ns =>
    obtain ⟨s', h1, h2⟩ := copy_same h e
    refine ⟨s', ?_, h2, fun q => .inl ?_⟩
    · simp only [step, module_function]
      rw [if_neg (fun q => hx (by rw [List.length_eq_zero_iff.1 q]))]
      exact h1
    · rw [copy_flag h1] at q; exact q

theorem run_same {up : Nat → Option (Nat × Vis)} : ∀ {b : List Stmt} {s : State} {r r' : RState} {t : Bool},
    Tidy b → (t = true ∨ ∀ v ns, .vis_names v ns ∉ b) →
    (s.flag = true → ∀ v, .vis v ∉ b) → Same up s r → ruby_run up r b = (r', t) →
    ∃ s', run (plain up) s b = (s', t) ∧ Same up s' r' := by
  intro b
  induction b with
  | nil => intro s r r' t _ _ _ h e; cases e; exact ⟨s, rfl, h⟩
  | cons x b ih =>
    intro s r r' t ht hn hf h e
    obtain ⟨t1, t2, t3⟩ := ht
    rw [List.pairwise_cons] at t1
    simp only [ruby_run] at e
    split at e
    · rename_i r1 hr
      obtain ⟨s1, h1, h2, h3⟩ := step_same h (fun q v w => hf q v (by rw [w]; exact List.mem_cons_self))
        (fun q => t2 (by rw [q]; exact List.mem_cons_self)) (.inl rfl) hr
      simp only [run, h1]
      refine ih ⟨t1.2, fun q => t2 (List.mem_cons_of_mem _ q), fun v q => t3 v (List.mem_cons_of_mem _ q)⟩
        (hn.imp id fun g v ns q => g v ns (List.mem_cons_of_mem _ q)) ?_ h2 e
      intro q v hv
      rcases h3 q with g | g
      · exact hf g v (List.mem_cons_of_mem _ hv)
      · exact t1.1 _ hv g v rfl
    · rename_i r1 hr
      cases e
      obtain ⟨s1, h1, h2, h3⟩ := step_same h (fun q v w => hf q v (by rw [w]; exact List.mem_cons_self))
        (fun q => t2 (by rw [q]; exact List.mem_cons_self))
        (hn.imp id fun g v ns q => g v ns (by rw [q]; exact List.mem_cons_self)) hr
      exact ⟨s1, by simp only [run, h1], h2⟩

/-! ## C126 -/

/-- **C126** (partial): a call that Ruby allows runs the method that Ruby runs, whatever `public`, `private`, `protected` and
`module_function` the body has, when Ruby finds no error in the body and none of the first three follows
`module_function`.  On the class itself exactly the same calls are possible, and so are calls without receiver.
Missing, as it fails: a call that Ruby does not allow. -/
theorem C126_allowed_partial {up : Nat → Option (Nat × Vis)} {b : List Stmt} {r : RState} (ht : Tidy b)
    (e : ruby_run up ruby_new b = (r, true)) :
    ∃ s, run (plain up) new b = (s, true) ∧
      (∀ own n d, ruby_call up r own n = some d → call (plain up) s own n = some d) ∧
      (∀ n, call (plain up) s true n = ruby_call up r true n) ∧
      ∀ sup n, call_singleton sup s n = ruby_call_singleton sup r n := by
  obtain ⟨s, h1, h2⟩ := run_same (s := new) ht (.inl rfl) (fun q => nomatch q)
    ⟨fun n => by simp [find, ruby_find, new, ruby_new, plain], rfl, by simp [new, ruby_new]⟩ e
  refine ⟨s, h1, fun own n d hd => ?_, fun n => ?_, fun sup n => ?_⟩
  · simp only [ruby_call] at hd
    split at hd
    · rename_i d' v hf
      split at hd
      · cases hd
        simp only [call, h2.methods, hf]; rfl
      · cases hd
    · cases hd
  · simp only [call, h2.methods, ruby_call]
    cases ruby_find up r.methods n with
    | none => rfl
    | some d => simp
  · simp only [call_singleton, find, ruby_call_singleton, h2.singleton]

/-- **C126** (partial): without `private`, `protected` and `module_function`, below classes with public methods only, the
calls that are possible are exactly those of Ruby. -/
theorem C126_public_partial {up : Nat → Option (Nat × Vis)} (hu : ∀ n d v, up n = some (d, v) → v = .public_)
    {b : List Stmt} (hb : ∀ x ∈ b, x = .vis .public_ ∨ ∃ n d, x = .def_ n d) :
    ∃ s r, run (plain up) new b = (s, true) ∧ ruby_run up ruby_new b = (r, true) ∧
      ∀ own n, call (plain up) s own n = ruby_call up r own n := by
  suffices key : ∀ (b : List Stmt) (s : State) (r : RState), (∀ x ∈ b, x = .vis .public_ ∨ ∃ n d, x = .def_ n d) →
      Same up s r → r.mode = .vis .public_ → (∀ n d v, ruby_find up r.methods n = some (d, v) → v = .public_) →
      ∃ s' r', run (plain up) s b = (s', true) ∧ ruby_run up r b = (r', true) ∧
        ∀ own n, call (plain up) s' own n = ruby_call up r' own n from
    key b new ruby_new hb ⟨fun n => by simp [find, ruby_find, new, ruby_new, plain], rfl, by simp [new, ruby_new]⟩ rfl
      (fun n d v h => hu n d v (by simpa [ruby_find, ruby_new] using h))
  intro b
  induction b with
  | nil =>
    intro s r _ h _ hp
    refine ⟨s, r, rfl, rfl, fun own n => ?_⟩
    simp only [call, h.methods, ruby_call]
    cases hf : ruby_find up r.methods n with
    | none => rfl
    | some q => obtain ⟨d, v⟩ := q; simp [hp n d v hf]
  | cons x b ih =>
    intro s r hb h hm hp
    have hf : ¬ s.flag = true := fun q => by rw [h.flag.1 q] at hm; cases hm
    have ht : ∃ r1, ruby_step up r x = (r1, true) ∧ r1.mode = .vis .public_ ∧
        ∀ n d v, ruby_find up r1.methods n = some (d, v) → v = .public_ := by
      rcases hb x List.mem_cons_self with rfl | ⟨n, d, rfl⟩
      · exact ⟨_, rfl, rfl, hp⟩
      · refine ⟨{ r with methods := ruby_put r.methods n (d, .public_) }, by simp only [ruby_step, hm], hm, fun k d v q => ?_⟩
        dsimp only at q
        rw [ruby_find_put] at q
        split at q
        · cases q; rfl
        · exact hp k d v q
    obtain ⟨r1, h1, h2, h3⟩ := ht
    obtain ⟨s1, g1, g2, _⟩ := step_same h (fun q => absurd q hf) (by
      rcases hb x List.mem_cons_self with rfl | ⟨n, d, rfl⟩ <;> simp) (.inl rfl) h1
    obtain ⟨s', r', e1, e2, e3⟩ := ih s1 r1 (fun x hx => hb x (List.mem_cons_of_mem _ hx)) g2 h2 h3
    exact ⟨s', r', by simp only [run, g1, e1], by simp only [ruby_run, h1, e2], e3⟩

/-- **C126**: an unknown name given to `module_function` ends the body, in a body without `private :n` and the like just
where Ruby ends it; what was done before holds. -/
theorem C126_error {up : Nat → Option (Nat × Vis)} {b : List Stmt} {r : RState} (ht : Tidy b)
    (hn : ∀ v ns, .vis_names v ns ∉ b) (e : ruby_run up ruby_new b = (r, false)) :
    ∃ s, run (plain up) new b = (s, false) ∧ (∀ n, call (plain up) s true n = ruby_call up r true n) ∧
      ∀ sup n, call_singleton sup s n = ruby_call_singleton sup r n := by
  obtain ⟨s, h1, h2⟩ := run_same (s := new) ht (.inr hn) (fun q => nomatch q)
    ⟨fun n => by simp [find, ruby_find, new, ruby_new, plain], rfl, by simp [new, ruby_new]⟩ e
  refine ⟨s, h1, fun n => ?_, fun sup n => ?_⟩
  · simp only [call, h2.methods, ruby_call]
    cases ruby_find up r.methods n with
    | none => rfl
    | some d => simp
  · simp only [call_singleton, find, ruby_call_singleton, h2.singleton]

/-- **C126 fails**: nothing keeps a call from a private or protected method.  In every class `private; def n; end` makes a
method that can be called from outside, as `def n; end; private :n` does. -/
theorem C126_private_fails (up : Nat → Option (Nat × Vis)) (n d : Nat) (v : Vis) (hv : v ≠ .public_) :
    (∃ s r, run (plain up) new [.vis v, .def_ n d] = (s, true) ∧ ruby_run up ruby_new [.vis v, .def_ n d] = (r, true) ∧
      call (plain up) s false n = some d ∧ ruby_call up r false n = none) ∧
    (∃ s r, run (plain up) new [.def_ n d, .vis_names v [n]] = (s, true) ∧
      ruby_run up ruby_new [.def_ n d, .vis_names v [n]] = (r, true) ∧
      call (plain up) s false n = some d ∧ ruby_call up r false n = none) := by
  refine ⟨⟨_, _, rfl, rfl, ?_, ?_⟩, ⟨_, { ruby_new with methods := ruby_put (ruby_put ruby_new.methods n (d, .public_)) n (d, v) },
    rfl, ?_, ?_, ?_⟩⟩
  · simp [call, find, visibility, def_method, new, put]
  · simp [ruby_call, ruby_find, ruby_put, hv]
  · simp [ruby_run, ruby_step, ruby_names, ruby_new, ruby_find, ruby_put]
  · simp [call, find, visibility, def_method, new, put]
  · simp [ruby_call, ruby_find, ruby_put, hv]

/-- **C126 fails** for `module_function`: the method itself stays public, where Ruby makes it private; and a `public` behind
it does not end its effect: a method defined there is callable on the module. -/
theorem C126_module_function_fails (n d : Nat) :
    (∃ s r, run (plain fun _ => none) new [.module_function, .def_ n d] = (s, true) ∧
      ruby_run (fun _ => none) ruby_new [.module_function, .def_ n d] = (r, true) ∧
      call (plain fun _ => none) s false n = some d ∧ ruby_call (fun _ => none) r false n = none) ∧
    (∃ s r, run (plain fun _ => none) new [.module_function, .vis .public_, .def_ n d] = (s, true) ∧
      ruby_run (fun _ => none) ruby_new [.module_function, .vis .public_, .def_ n d] = (r, true) ∧
      call_singleton (fun _ => none) s n = some d ∧ ruby_call_singleton (fun _ => none) r n = none) := by
  refine ⟨⟨_, _, rfl, rfl, ?_, ?_⟩, ⟨_, _, rfl, rfl, ?_, ?_⟩⟩
  · simp [call, find, def_method, new, put]
  · simp [ruby_call, ruby_find, ruby_put]
  · simp [call_singleton, find, def_method, visibility, new, put]
  · simp [ruby_call_singleton, ruby_new]

/-- **C126 fails** for unknown names: `private :n` is accepted where Ruby raises a NameError. -/
theorem C126_unknown_fails (n : Nat) (v : Vis) :
    (run (plain fun _ => none) new [.vis_names v [n]]).2 = true ∧
    (ruby_run (fun _ => none) ruby_new [.vis_names v [n]]).2 = false := by
  exact ⟨rfl, rfl⟩

/-! ## Instances -/

/-- `def a; end; private; def b; end; module_function :a; public; def c; end`, with an inherited public method 9. -/
def sample : List Stmt :=
  [.def_ 1 10, .vis .private_, .def_ 2 20, .module_function_names [1, 9], .vis .public_, .def_ 3 30]

/-- What is above: one public method. -/
def above (n : Nat) : Option (Nat × Vis) := if n = 9 then some (90, .public_) else none

example : Tidy sample := by
  refine ⟨by simp [sample], by simp [sample], by simp [sample]⟩
example : (ruby_run above ruby_new sample).2 = true := by decide +kernel
example : [1, 2, 3, 9].map (ruby_call above (ruby_run above ruby_new sample).1 false) = [none, none, some 30, none] := by
  decide +kernel
example : [1, 2, 3, 9].map (ruby_call above (ruby_run above ruby_new sample).1 true) =
    [some 10, some 20, some 30, some 90] := by decide +kernel
example : [1, 2, 3, 9].map (call_singleton (fun _ => none) (run (plain above) new sample).1) =
    [some 10, none, none, some 90] := by decide +kernel
example : (ruby_run above ruby_new [.def_ 1 10, .module_function_names [1, 7], .def_ 2 20]).2 = false := by decide +kernel
example : ∀ n d v, above n = some (d, v) → v = .public_ := by
  intro n d v h
  simp only [above] at h
  split at h <;> cases h
  rfl

end Verif.Class.Visible
