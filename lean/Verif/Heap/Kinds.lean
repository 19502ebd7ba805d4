import Verif.Heap.Props
/-!
# What `mark` visits, kind by kind

Model of the `GC::mark` implementations.  A reference is a cell or nothing (a packed value).  `kids` lists what `mark`
visits, in the code's order.  `refs` is written from the other side: what an object holds and a program can get back
from it.  Environment frames moved to the heap are boxes owned by nobody, not cells: they are part of the object
holding them, as the chain of a frame and its outer frames, innermost first.  Simplification: a frame captured by two
objects is represented in both.
-/
namespace Verif.Heap.Kinds

abbrev Ref := Option Cell

/-- One environment frame of Ruby code: `self`, its locals, its block (a Proc or not an object). -/
structure Frame where
  self_val : Ref
  locals : List Ref
  block : Ref

/-- A control frame of a VM: of Ruby code or a native method, its environment, whether that has been moved to the
heap, and the chain of outer frames. -/
structure CFrame where
  is_ruby : Bool
  env : Frame
  on_heap : Bool
  outer : List Frame

/-- The values of a VM: `stack` holds the frames that are on it, with their locals, `self` and block. -/
structure VMState where
  stack : List Ref
  temp_stack : List Ref
  frames : List CFrame

/-- Arguments kept in an enumerator (`vm/args.rs:182-187`). -/
structure ArgVals where
  elems : List Ref
  kw_arg : Ref
  block : Ref

inductive FiberState where
  | Created | Running | Dead
  deriving DecidableEq

/-- `coroutine.rs:24-28` -/
inductive FiberKind where
  | fiber (context : List Frame)
  | enum (receiver : Ref) (args : ArgVals)

inductive Kind where
  | leaf                                                                     -- ORDINARY … EXCEPTION
  | complex (r i : Ref)
  | module_ (upper : Ref) (consts : List Ref) (origin : Ref) (singleton_for : Ref)
  | array (elems : List Ref)
  | hash (pairs : List (Ref × Ref))
  | range (start end_ : Ref)
  | splat (v : Ref)
  | proc (self_val : Ref) (outer : List Frame)
  | method (receiver owner : Ref)
  | fiber (state : FiberState) (vm : VMState) (kind : FiberKind)              -- FIBER and ENUMERATOR
  | binding (env : List Frame)

structure RVal where
  cls : Ref
  vars : List Ref
  kind : Kind

/-! ### What is visited -/

/-- `vm/executor/frame.rs:237-246` `EnvFrame::mark` on a frame and the chain of its outer frames; `locals()`
(`frame.rs:303-307`) leaves out `self`. -/
def envMark : List Frame → List Ref
  | [] => []
  | f :: fs => f.locals ++ envMark fs

/-- `vm/executor.rs:71-92` `VM::mark` -/
def vmMark (vm : VMState) : List Ref :=
  vm.stack ++ vm.temp_stack ++
    vm.frames.flatMap (fun f => if f.is_ruby then (if f.on_heap then f.env.locals else []) ++ envMark f.outer else [])

/-- `coroutine.rs:30-37`, `46-51`, `vm/args.rs:189-199`, `55-62` -/
def fiberKindMark : FiberKind → List Ref
  | .fiber ctx => envMark ctx
  | .enum r args => r :: args.elems ++ [args.kw_arg, args.block]

/-- `value/rvalue.rs:458-490` -/
def kindMark : Kind → List Ref
  | .leaf => []
  | .complex r i => [r, i]
  | .module_ u cs o _ => u :: cs ++ [o]                                       -- `value/class.rs:323-333`
  | .array es => es
  | .hash ps => ps.flatMap (fun p => [p.1, p.2])                              -- `value/hash.rs:212-219`
  | .range s e => [s, e]
  | .splat v => [v]
  | .proc s env => s :: envMark env                                           -- `builtin/procobj.rs:20-25`
  | .method r _ => [r]                                                        -- `globals/method.rs:619-625`
  | .fiber st vm k => if st = .Dead then [] else vmMark vm ++ fiberKindMark k -- `coroutine.rs:71-79`
  | .binding env => envMark env

def cells (l : List Ref) : List Cell := l.filterMap id

/-- `value/rvalue.rs:448-457`: the class, the instance variables, then by kind. -/
def kids (o : RVal) : List Cell := cells (o.cls :: o.vars ++ kindMark o.kind)

/-! ### What is held

The specification: the references from which a program can get a value back. -/

/-- Code run in a frame sees `self`, can yield to the block, and reads the locals, of it and of the outer frames. -/
inductive EnvHolds (env : List Frame) (x : Ref) : Prop
  | self_val (f) : f ∈ env → x = f.self_val → EnvHolds env x
  | block (f) : f ∈ env → x = f.block → EnvHolds env x
  | local_ (f) : f ∈ env → x ∈ f.locals → EnvHolds env x

/-- A suspended VM goes on with what is on its stacks, the locals of its frames moved to the heap, and their outer
frames. -/
inductive VMHolds (vm : VMState) (x : Ref) : Prop
  | stack : x ∈ vm.stack → VMHolds vm x
  | temp : x ∈ vm.temp_stack → VMHolds vm x
  | moved (f) : f ∈ vm.frames → f.is_ruby = true → f.on_heap = true → x ∈ f.env.locals → VMHolds vm x
  | outer (f) : f ∈ vm.frames → f.is_ruby = true → EnvHolds f.outer x → VMHolds vm x

inductive KindHolds : Kind → Ref → Prop
  | real {r i} : KindHolds (.complex r i) r
  | imag {r i} : KindHolds (.complex r i) i
  | upper {u cs o s} : KindHolds (.module_ u cs o s) u
  | const {u cs o s c} : c ∈ cs → KindHolds (.module_ u cs o s) c
  | origin {u cs o s} : KindHolds (.module_ u cs o s) o
  | singleton {u cs o s} : KindHolds (.module_ u cs o s) s
  | elem {es e} : e ∈ es → KindHolds (.array es) e
  | key {ps p} : p ∈ ps → KindHolds (.hash ps) p.1
  | value {ps p} : p ∈ ps → KindHolds (.hash ps) p.2
  | start {s e} : KindHolds (.range s e) s
  | end_ {s e} : KindHolds (.range s e) e
  | splat {v} : KindHolds (.splat v) v
  | proc_self {s env} : KindHolds (.proc s env) s
  | proc_env {s env x} : EnvHolds env x → KindHolds (.proc s env) x
  | receiver {r o} : KindHolds (.method r o) r
  | owner {r o} : KindHolds (.method r o) o
  | vm {st vm k x} : st ≠ .Dead → VMHolds vm x → KindHolds (.fiber st vm k) x
  | created {vm ctx x} : EnvHolds ctx x → KindHolds (.fiber .Created vm (.fiber ctx)) x
  | running {vm ctx f x} : f ∈ ctx → x ∈ f.locals → KindHolds (.fiber .Running vm (.fiber ctx)) x
  | enum_receiver {st vm r a} : st ≠ .Dead → KindHolds (.fiber st vm (.enum r a)) r
  | enum_arg {st vm r a x} : st ≠ .Dead → x ∈ a.elems → KindHolds (.fiber st vm (.enum r a)) x
  | enum_kw {st vm r a} : st ≠ .Dead → KindHolds (.fiber st vm (.enum r a)) a.kw_arg
  | enum_block {st vm r a} : st ≠ .Dead → KindHolds (.fiber st vm (.enum r a)) a.block
  | env {env x} : EnvHolds env x → KindHolds (.binding env) x

/-- Everything a program can get from an object. -/
def Holds (o : RVal) (k : Cell) : Prop := some k = o.cls ∨ some k ∈ o.vars ∨ KindHolds o.kind (some k)

/-- The cells a program can get at. -/
inductive ReachableH {D : Type} (h : Cell → Option D) (holds : D → Cell → Prop) (roots : List Cell) : Cell → Prop
  | root {c} : c ∈ roots → ReachableH h holds roots c
  | step {c d k} : ReachableH h holds roots c → h c = some d → holds d k → ReachableH h holds roots k

/-- An object all of whose references are visited. -/
def Covered (o : RVal) : Prop := ∀ k, Holds o k → k ∈ kids o

/-! ### Which kinds are covered -/

theorem mem_kids (o : RVal) (k : Cell) : k ∈ kids o ↔ some k = o.cls ∨ some k ∈ o.vars ∨ some k ∈ kindMark o.kind := by
  simp only [kids, cells, List.mem_filterMap, id_eq, exists_eq_right, List.mem_append, List.mem_cons, or_assoc]

theorem mem_envMark (env : List Frame) (x : Ref) : x ∈ envMark env ↔ ∃ f ∈ env, x ∈ f.locals := by
  induction env with
  | nil => simp [envMark]
  | cons f fs ih => simp [envMark, ih]

/-- Every reference that is visited is held. -/
theorem kids_held (o : RVal) (k : Cell) (h : k ∈ kids o) : Holds o k := by
  rw [mem_kids] at h
  rcases h with h | h | h
  · exact .inl h
  · exact .inr (.inl h)
  · refine .inr (.inr ?_)
    rcases o with ⟨cls, vars, kind⟩
    have hvm : ∀ vm x, x ∈ vmMark vm → VMHolds vm x := by
      intro vm x hx
      simp only [vmMark, List.mem_append, List.mem_flatMap] at hx
      rcases hx with (hx | hx) | ⟨f, hf, hx⟩
      · exact .stack hx
      · exact .temp hx
      · split at hx
        · rename_i hr
          rcases List.mem_append.mp hx with hx | hx
          · split at hx
            · rename_i hh; exact .moved f hf hr hh hx
            · simp at hx
          · obtain ⟨g, hg, hx⟩ := (mem_envMark _ _).mp hx
            exact .outer f hf hr (.local_ g hg hx)
        · simp at hx
    rcases kind with _ | ⟨r, i⟩ | ⟨u, cs, og, s⟩ | es | ps | ⟨s, e⟩ | v | ⟨s, env⟩ | ⟨r, ow⟩ | ⟨st, vm, fk⟩ | env
    all_goals simp only [kindMark, List.mem_cons, List.not_mem_nil, or_false, List.mem_append] at h
    · rcases h with h | h <;> rw [h]
      · exact .real
      · exact .imag
    · rcases h with (h | h) | h
      · rw [h]; exact .upper
      · exact .const h
      · rw [h]; exact .origin
    · exact .elem h
    · simp only [List.mem_flatMap, List.mem_cons, List.not_mem_nil, or_false] at h
      obtain ⟨p, hp, h | h⟩ := h <;> rw [h]
      · exact .key hp
      · exact .value hp
    · rcases h with h | h <;> rw [h]
      · exact .start
      · exact .end_
    · rw [h]; exact .splat
    · rcases h with h | h
      · rw [h]; exact .proc_self
      · obtain ⟨g, hg, hx⟩ := (mem_envMark _ _).mp h
        exact .proc_env (.local_ g hg hx)
    · rw [h]; exact .receiver
    · split at h
      · simp at h
      · rename_i hd
        rcases List.mem_append.mp h with h | h
        · exact .vm hd (hvm _ _ h)
        · rcases fk with ctx | ⟨r, a⟩
          · obtain ⟨g, hg, hx⟩ := (mem_envMark _ _).mp h
            rcases st with _ | _ | _
            · exact .created (.local_ g hg hx)
            · exact .running hg hx
            · exact absurd rfl hd
          · simp only [fiberKindMark, List.mem_cons, List.mem_append, List.not_mem_nil, or_false] at h
            rcases h with (h | h) | h | h
            · rw [h]; exact .enum_receiver hd
            · exact .enum_arg hd h
            · rw [h]; exact .enum_kw hd
            · rw [h]; exact .enum_block hd
    · obtain ⟨g, hg, hx⟩ := (mem_envMark _ _).mp h
      exact .env (.local_ g hg hx)

/-- Covered, whatever they contain: strings, numbers, exceptions and plain objects with their instance variables,
complex numbers, arrays, hashes, ranges, splats, classes and modules that are no singleton class, finished fibers and
enumerators.  With a condition: closures over frames whose `self` is the Proc's own and whose block is no Proc; fibers
that have been resumed, and enumerators, when the outer frames of their frames have a `self` and block that are also
on their stack or no objects. -/
theorem covered_kinds (o : RVal)
    (h : match o.kind with
      | .leaf | .complex _ _ | .array _ | .hash _ | .range _ _ | .splat _ => True
      | .module_ _ _ _ s => s = none
      | .proc s env => ∀ f ∈ env, f.self_val = s ∧ f.block = none
      | .fiber st vm k => st = .Dead ∨ ((match k with | .enum _ _ => True | .fiber _ => st = .Running) ∧
          ∀ f ∈ vm.frames, ∀ g ∈ f.outer, (g.self_val = none ∨ g.self_val ∈ vm.stack) ∧
            (g.block = none ∨ g.block ∈ vm.stack))
      | .method _ _ | .binding _ => False) : Covered o := by
  intro k hk
  rw [mem_kids]
  rcases hk with hk | hk | hk
  · exact .inl hk
  · exact .inr (.inl hk)
  · refine .inr (.inr ?_)
    rcases o with ⟨cls, vars, kind⟩
    dsimp only at hk h ⊢
    generalize hx : some k = x at hk ⊢
    have hne : x ≠ none := by rw [← hx]; simp
    cases hk with
    | real => simp [kindMark]
    | imag => simp [kindMark]
    | upper => simp [kindMark]
    | const hc => simp [kindMark, hc]
    | origin => simp [kindMark]
    | singleton => exact absurd h hne
    | elem he => exact he
    | key hp => simp only [kindMark, List.mem_flatMap]; exact ⟨_, hp, by simp⟩
    | value hp => simp only [kindMark, List.mem_flatMap]; exact ⟨_, hp, by simp⟩
    | start => simp [kindMark]
    | end_ => simp [kindMark]
    | splat => simp [kindMark]
    | proc_self => simp [kindMark]
    | proc_env he =>
      dsimp only at h
      cases he with
      | self_val f hf e => simp [kindMark, e, (h f hf).1]
      | block f hf e => rw [(h f hf).2] at e; exact absurd e hne
      | local_ f hf e =>
        simp only [kindMark, List.mem_cons, mem_envMark]
        exact .inr ⟨f, hf, e⟩
    | receiver => exact h.elim
    | owner => exact h.elim
    | @vm st vm fk _ hd hv =>
      have h' := h.resolve_left hd
      simp only [kindMark, hd, if_false, List.mem_append]
      left
      simp only [vmMark, List.mem_append, List.mem_flatMap]
      cases hv with
      | stack hs => exact .inl (.inl hs)
      | temp hs => exact .inl (.inr hs)
      | moved f hf hr hh hl =>
        refine .inr ⟨f, hf, ?_⟩
        rw [if_pos hr, if_pos hh]; simp [hl]
      | outer f hf hr he =>
        cases he with
        | self_val g hg e =>
          rcases (h'.2 f hf g hg).1 with h1 | h1
          · rw [h1] at e; exact absurd e hne
          · exact .inl (.inl (e ▸ h1))
        | block g hg e =>
          rcases (h'.2 f hf g hg).2 with h1 | h1
          · rw [h1] at e; exact absurd e hne
          · exact .inl (.inl (e ▸ h1))
        | local_ g hg e =>
          refine .inr ⟨f, hf, ?_⟩
          rw [if_pos hr, List.mem_append, mem_envMark]
          exact .inr ⟨g, hg, e⟩
    | created he =>
      rcases h with h | ⟨h, _⟩ <;> cases h
    | running hf hl =>
      refine List.mem_append.mpr (.inr ?_)
      exact (mem_envMark _ _).mpr ⟨_, hf, hl⟩
    | enum_receiver hd => simp [kindMark, hd, fiberKindMark]
    | enum_arg hd ha => simp [kindMark, hd, fiberKindMark, ha]
    | enum_kw hd => simp [kindMark, hd, fiberKindMark]
    | enum_block hd => simp [kindMark, hd, fiberKindMark]
    | env he => exact h.elim

/-- C26 for ruruby's objects: with the collector's own choice of references to follow, everything a program can get at
through the objects stays intact, as long as it builds objects that are `Covered`.  Missing for the full property:
Method and UnboundMethod objects, Bindings, fibers not yet resumed, singleton classes, and closures over frames with
another `self` or a Proc as block. -/
theorem C26_kinds_partial {h : Cell → Option {o : RVal // Covered o}} {roots : List Cell}
    {a : Alloc {o : RVal // Covered o}} (hr : Run (fun o => kids o.1) h roots a) (c : Cell)
    (hc : ReachableH h (fun o => Holds o.1) roots c) : (h c).isSome ∧ contents a c = h c := by
  apply C26_reachable_intact hr
  induction hc with
  | root hc => exact .root hc
  | @step c d k _ hm hk ih => exact .step ih hm (d.2 k hk)

/-- The side conditions of `Run` on what a program may store are those of the program's own view. -/
theorem C26_kinds_reachable (h : Cell → Option {o : RVal // Covered o}) (roots : List Cell) (c : Cell) :
    Reachable h (fun o => kids o.1) roots c ↔ ReachableH h (fun o => Holds o.1) roots c := by
  constructor
  · intro hc
    induction hc with
    | root hc => exact .root hc
    | @step c d k _ hm hk ih => exact .step ih hm (kids_held d.1 k hk)
  · intro hc
    induction hc with
    | root hc => exact .root hc
    | @step c d k _ hm hk ih => exact .step ih hm (d.2 k hk)

/-- A covered, non-trivial object: an array of two objects with an instance variable. -/
example : Covered ⟨some ⟨0, 0⟩, [some ⟨0, 1⟩], .array [some ⟨0, 2⟩, none, some ⟨0, 3⟩]⟩ := covered_kinds _ trivial

example : kids ⟨some ⟨0, 0⟩, [some ⟨0, 1⟩], .array [some ⟨0, 2⟩, none, some ⟨0, 3⟩]⟩ = [⟨0, 0⟩, ⟨0, 1⟩, ⟨0, 2⟩, ⟨0, 3⟩] := rfl

/-- A covered closure: a Proc made in a method whose `self` is in cell (0,0), capturing a local. -/
example : Covered ⟨none, [], .proc (some ⟨0, 0⟩) [⟨some ⟨0, 0⟩, [some ⟨0, 2⟩], none⟩]⟩ :=
  covered_kinds _ (by simp)

/-! ### What goes wrong without the restriction -/

def plain : RVal := ⟨none, [], .leaf⟩

/-- Build `plain` in cell (0,0), then an object in (0,1), keep the second only. -/
def twoObj (o : RVal) : Alloc RVal := (((Alloc.new : Alloc RVal).alloc plain).2.alloc o).2

theorem twoObj_run (o : RVal) (ho : ∀ k ∈ kids o, k = ⟨0, 0⟩) (h1 : Holds o ⟨0, 0⟩) :
    ∃ h, Run kids h [⟨0, 1⟩] (twoObj o) ∧ ReachableH h Holds [⟨0, 1⟩] ⟨0, 0⟩ := by
  have r0 : Run kids (fun _ => none) [] (Alloc.new : Alloc RVal) := .start
  have r1 := Run.alloc (refs := kids) plain r0 (by intro k hk; simp [plain, kids, kindMark, cells] at hk)
  have r2 := Run.alloc (refs := kids) o r1 (by
    intro k hk
    exact .root (by simp [ho k hk, Alloc.alloc, Alloc.new, DATA_LEN]))
  have r3 := Run.roots (refs := kids) [⟨0, 1⟩] r2 (by
    intro k hk
    simp at hk
    exact .root (by simp [hk, Alloc.alloc, Alloc.new, DATA_LEN]))
  refine ⟨_, r3, ?_⟩
  refine .step (c := ⟨0, 1⟩) (d := o) (.root (by simp)) ?_ h1
  simp [upd, Alloc.alloc, Alloc.new, DATA_LEN]

/-- `Foo.new.get_binding`, where `get_binding` is `def get_binding; binding; end`. -/
def bindingObj : RVal := ⟨none, [], .binding [⟨some ⟨0, 0⟩, [], none⟩]⟩
/-- `Fiber.new { … }` made in a method of an object nothing else refers to, not resumed yet. -/
def fiberObj : RVal := ⟨none, [], .fiber .Created ⟨[], [], []⟩ (.fiber [⟨some ⟨0, 0⟩, [], none⟩])⟩
/-- `Class.new { def f; end }.instance_method(:f)` -/
def umethodObj : RVal := ⟨none, [], .method none (some ⟨0, 0⟩)⟩
/-- The singleton class of an object, kept after the object is dropped. -/
def singletonObj : RVal := ⟨none, [], .module_ none [] none (some ⟨0, 0⟩)⟩
/-- `m(&pr)` with `def m; proc { yield }; end`: the captured frame of `m` has the Proc `pr` as its block. -/
def procObj : RVal := ⟨none, [], .proc none [⟨none, [], some ⟨0, 0⟩⟩]⟩

/-- C26 fails for these: the program still has `Binding#receiver`, the fiber's `self`, `UnboundMethod#owner`, the
object named by the singleton class, the block to yield to; and a collection frees it. -/
theorem C26_unmarked_holders_fails : ∀ o ∈ [bindingObj, fiberObj, umethodObj, singletonObj, procObj],
    ∃ h a, Run kids h [⟨0, 1⟩] a ∧ ReachableH h Holds [⟨0, 1⟩] ⟨0, 0⟩ ∧ contents a ⟨0, 0⟩ = some plain ∧
      contents (a.gc kids [⟨0, 1⟩]) ⟨0, 0⟩ = none := by
  intro o ho
  simp only [List.mem_cons, List.not_mem_nil, or_false] at ho
  rcases ho with rfl | rfl | rfl | rfl | rfl
  · obtain ⟨h, hr, hc⟩ := twoObj_run bindingObj (by decide)
      (.inr (.inr (.env (.self_val _ (List.mem_singleton.mpr rfl) rfl))))
    exact ⟨h, _, hr, hc, rfl, by rfl⟩
  · obtain ⟨h, hr, hc⟩ := twoObj_run fiberObj (by decide)
      (.inr (.inr (.created (.self_val _ (List.mem_singleton.mpr rfl) rfl))))
    exact ⟨h, _, hr, hc, rfl, by rfl⟩
  · obtain ⟨h, hr, hc⟩ := twoObj_run umethodObj (by decide) (.inr (.inr .owner))
    exact ⟨h, _, hr, hc, rfl, by rfl⟩
  · obtain ⟨h, hr, hc⟩ := twoObj_run singletonObj (by decide) (.inr (.inr .singleton))
    exact ⟨h, _, hr, hc, rfl, by rfl⟩
  · obtain ⟨h, hr, hc⟩ := twoObj_run procObj (by decide)
      (.inr (.inr (.proc_env (.block _ (List.mem_singleton.mpr rfl) rfl))))
    exact ⟨h, _, hr, hc, rfl, by rfl⟩

end Verif.Heap.Kinds
