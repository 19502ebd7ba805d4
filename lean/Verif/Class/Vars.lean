import Mathlib.Data.List.Nodup
/-! # C90: class variables

The graph of classes is modelled once more (`Class/Model.lean` leaves out the variables): each class has its `upper` and its
own table of variables.  Prepended modules and singleton classes are left out. -/
namespace Verif.Class.Vars

abbrev Name := Nat

variable {V : Type}

/-! ## Model -/

/-- `ClassFlags` (value/class.rs:613-660): classes, modules, and the copies of modules that `include` makes. -/
inductive Kind
  | class
  | module
  | copy
  deriving DecidableEq

/-- Classes and modules by address: `ClassInfo::upper` (value/class.rs:308-312) and `var_table` (value/rvalue.rs:14-22). -/
structure State (V : Type) where
  next : Nat := 0
  upper : Nat → Option Nat := fun _ => none
  kind : Nat → Kind := fun _ => .class
  vars : Nat → Name → Option V := fun _ _ => none

/-- A new object with these fields. -/
def State.alloc (s : State V) (up : Option Nat) (k : Kind) (t : Name → Option V) : State V :=
  { next := s.next + 1
    upper := fun y => if y = s.next then up else s.upper y
    kind := fun y => if y = s.next then k else s.kind y
    vars := fun y => if y = s.next then t else s.vars y }

/-- `x.upper = u`. -/
def State.setUpper (s : State V) (a : Nat) (u : Option Nat) : State V :=
  { s with upper := fun y => if y = a then u else s.upper y }

/-- `Module::set_var` (value/class.rs:260-262). -/
def State.setVar (s : State V) (a : Nat) (x : Name) (v : V) : State V :=
  { s with vars := fun y z => if y = a ∧ z = x then some v else s.vars y z }

/-- `generate_included` (value/class.rs:122-125) by `shallow_dup` (value/rvalue.rs:560-572), which copies the table of
variables. -/
def State.copy (s : State V) (m : Nat) : State V := s.alloc (s.upper m) .copy (s.vars m)

/-- The loop of `append_include` (value/class.rs:488-497); the last copy gets the superclass.  `none`: out of fuel. -/
def includeLoop : Nat → State V → Nat → Nat → Option Nat → Option (State V)
  | 0, _, _, _, _ => none
  | n + 1, s, imodule, module, superclass =>
    match s.upper module with
    | none => some (s.setUpper imodule superclass)
    | some module' => includeLoop n ((s.copy module').setUpper imodule (some s.next)) s.next module' superclass

/-- `append_include` (value/class.rs:484-498). -/
def appendInclude (n : Nat) (s : State V) (c m : Nat) : Option (State V) :=
  includeLoop n ((s.copy m).setUpper c (some s.next)) s.next m (s.upper c)

/-- What `self` is where a class variable is used. -/
inductive Self
  /-- the main object -/
  | main
  /-- an object whose class (not a singleton class) is this -/
  | instance (c : Nat)
  /-- a class or module -/
  | class (c : Nat)
  deriving DecidableEq

inductive Res (α : Type)
  | ok (a : α)
  | nameError
  | runtimeError
  deriving DecidableEq

/-- The loop of `get_class_var` (vm/executor.rs:609-627). -/
def getLoop (s : State V) (x : Name) : Nat → Nat → Option (Res V)
  | 0, _ => none
  | n + 1, c =>
    match s.vars c x with
    | some v => some (.ok v)
    | none => match s.upper c with
      | some u => getLoop s x n u
      | none => some .nameError

/-- `get_class_var` (vm/executor.rs:603-628); `get_class_if_object` (globals.rs:172-177). -/
def get (n : Nat) (s : State V) (self : Self) (x : Name) : Option (Res V) :=
  match self with
  | .main => some .runtimeError
  | .instance c => getLoop s x n c
  | .class c => getLoop s x n c

/-- The loop of `set_class_var` (vm/executor.rs:588-600), with `set_var_if_exists`. -/
def setLoop (s : State V) (org : Nat) (x : Name) (v : V) : Nat → Nat → Option (State V)
  | 0, _ => none
  | n + 1, c =>
    match s.vars c x with
    | some _ => some (s.setVar c x v)
    | none => match s.upper c with
      | some u => setLoop s org x v n u
      | none => some (s.setVar org x v)

/-- `set_class_var` (vm/executor.rs:581-601). -/
def set (n : Nat) (s : State V) (self : Self) (x : Name) (v : V) : Option (Res (State V)) :=
  match self with
  | .main => some .runtimeError
  | .instance c => (setLoop s c x v n c).map .ok
  | .class c => (setLoop s c x v n c).map .ok

/-- What `class_variables` gives. -/
inductive Listed
  | names (f : Name → Bool)
  | argumentError
  | panic

/-- `Module#class_variables` (builtin/module.rs:203-217); the names, which the code gives in any order, as a function.  The
argument tells whether the variables of the superclasses are wanted, too. -/
def class_variables (s : State V) (c : Nat) : List Bool → Listed
  | [false] => .names fun x => (s.vars c x).isSome
  | [true] => .panic
  | _ => .argumentError

/-- What a program does. -/
inductive Op (V : Type)
  | newClass (superclass : Option Nat)
  | newModule
  | incl (c m : Nat)
  | set (self : Self) (x : Name) (v : V)

/-- One step; an exception changes nothing. -/
def exec (n : Nat) (s : State V) : Op V → Option (State V)
  | .newClass sup => some (s.alloc sup .class fun _ => none)
  | .newModule => some (s.alloc none .module fun _ => none)
  | .incl c m => appendInclude n s c m
  | .set self x v => (set n s self x v).map fun
    | .ok s' => s'
    | _ => s

/-! ## Specification -/

/-- `l` are the classes from `start` up to, not including, `stop`. -/
def Seg (up : Nat → Option Nat) : Option Nat → List Nat → Option Nat → Prop
  | start, [], stop => start = stop
  | start, y :: l, stop => start = some y ∧ Seg up (up y) l stop

/-- `d` is `c` or inherits from it. -/
def Below (s : State V) (c d : Nat) : Prop := ∃ l, Seg s.upper (some d) l none ∧ c ∈ l

/-- The class whose variables `self` uses. -/
def Self.uses : Self → Nat → Prop
  | .main, _ => False
  | .instance c, d => c = d
  | .class c, d => c = d

/-- What a program may do: it uses objects that exist, includes modules, and not into themselves. -/
def Legal (s : State V) : Op V → Prop
  | .newClass sup => ∀ u, sup = some u → u < s.next ∧ s.kind u = .class
  | .newModule => True
  | .incl c m => c < s.next ∧ m < s.next ∧ s.kind m = .module ∧ ¬ Below s c m ∧ s.kind c ≠ .copy
  | .set self _ _ => ∀ c, self.uses c → c < s.next ∧ s.kind c ≠ .copy

/-- The states a program can reach. -/
inductive Built : State V → Prop
  | start : Built {}
  | step {s op n s'} : Built s → Legal s op → exec n s op = some s' → Built s'

/-- What is left out for the variable `x` of `c`: it is not assigned by a module, nor by a class above `c`. -/
def Apart (s : State V) (c : Nat) (x : Name) : Op V → Prop
  | .set self y _ => y = x → ∀ d, self.uses d → s.kind d = .class ∧ (Below s d c → d = c)
  | _ => True

/-- A run of a program; the value of the variable `x` of `c` is that of the last assignment by `c`, a class below it or one
of their instances. -/
inductive History (c : Nat) (x : Name) : State V → V → State V → V → Prop
  | nil {s v} : History c x s v s v
  /-- an assignment by a class that is below `c` at this moment -/
  | assign {s v s1 v1 n self d w s2} : History c x s v s1 v1 → Legal s1 (.set self x w) → self.uses d → Below s1 c d →
      Apart s1 c x (.set self x w) → exec n s1 (.set self x w) = some s2 → History c x s v s2 w
  /-- anything else -/
  | other {s v s1 v1 n op s2} : History c x s v s1 v1 → Legal s1 op → Apart s1 c x op →
      (∀ self w d, op = .set self x w → self.uses d → ¬ Below s1 c d) → exec n s1 op = some s2 → History c x s v s2 v1

/-! ## Helpers -/

theorem Seg.append {up : Nat → Option Nat} : ∀ {l1 l2 a b c}, Seg up a l1 b → Seg up b l2 c → Seg up a (l1 ++ l2) c
  | [], _, _, _, _, h1, h2 => by cases h1; exact h2
  | _ :: _, _, _, _, _, h1, h2 => ⟨h1.1, Seg.append h1.2 h2⟩

theorem Seg.split {up : Nat → Option Nat} : ∀ {l1 l2 a c}, Seg up a (l1 ++ l2) c → ∃ b, Seg up a l1 b ∧ Seg up b l2 c
  | [], _, a, _, h => ⟨a, rfl, h⟩
  | _ :: _, _, _, _, h => by
    obtain ⟨b, h1, h2⟩ := Seg.split h.2
    exact ⟨b, ⟨h.1, h1⟩, h2⟩

theorem Seg.unique {up : Nat → Option Nat} : ∀ {l1 l2 a}, Seg up a l1 none → Seg up a l2 none → l1 = l2
  | [], [], _, _, _ => rfl
  | [], _ :: _, _, h1, h2 => by cases h1; cases h2.1
  | _ :: _, [], _, h1, h2 => by cases h2; cases h1.1
  | x :: l1, y :: l2, a, h1, h2 => by
    have : x = y := by have := h1.1; rw [h2.1] at this; exact (Option.some.inj this).symm
    subst this
    rw [Seg.unique h1.2 h2.2]

theorem Seg.congr {up up' : Nat → Option Nat} : ∀ {l a b}, Seg up a l b → (∀ y ∈ l, up' y = up y) → Seg up' a l b
  | [], _, _, h, _ => h
  | y :: l, _, _, h, e => ⟨h.1, by rw [e y (by simp)]; exact Seg.congr h.2 fun z hz => e z (by simp [hz])⟩

/-- The classes from a class on are a part of the classes from any class before it. -/
theorem Seg.nodup {up : Nat → Option Nat} : ∀ {l a}, Seg up a l none → l.Nodup
  | [], _, _ => by simp
  | y :: l, a, h => by
    rw [List.nodup_cons]
    refine ⟨?_, Seg.nodup h.2⟩
    intro hy
    obtain ⟨l1, l2, rfl⟩ := List.append_of_mem hy
    obtain ⟨b, _, h2⟩ := Seg.split h.2
    have e : b = some y := h2.1
    subst e
    have ha : Seg up (some y) (y :: (l1 ++ y :: l2)) none := ⟨rfl, h.2⟩
    have := congrArg List.length (Seg.unique ha h2)
    simp at this
    omega

structure WF (s : State V) : Prop where
  chain : ∀ a < s.next, ∃ l, Seg s.upper (some a) l none ∧ ∀ y ∈ l, y < s.next
  fresh : ∀ a, s.next ≤ a → s.vars a = fun _ => none
  mods : ∀ a l, s.kind a = .module → a < s.next → Seg s.upper (some a) l none → ∀ y ∈ l, s.kind y ≠ .class

theorem below_refl {s : State V} (w : WF s) {c : Nat} (h : c < s.next) : Below s c c := by
  obtain ⟨l, hl, _⟩ := w.chain c h
  refine ⟨l, hl, ?_⟩
  cases l with
  | nil => cases hl
  | cons y l => cases hl.1; simp

/-- A class in between. -/
theorem below_mid {s : State V} {d : Nat} {l1 l2 : List Nat} {c : Nat} (h : Seg s.upper (some d) (l1 ++ c :: l2) none) {y : Nat}
    (hy : y ∈ l1) : Below s c y := by
  obtain ⟨a, b, rfl⟩ := List.append_of_mem hy
  rw [List.append_assoc] at h
  obtain ⟨e, _, h2⟩ := Seg.split h
  have : e = some y := h2.1
  subst this
  exact ⟨_, h2, by simp⟩

theorem getLoop_seg {s : State V} {x : Name} : ∀ {l1 : List Nat} {c : Nat} {l2 : List Nat} {d : Nat} {v : V} {n : Nat},
    Seg s.upper (some d) (l1 ++ c :: l2) none → (∀ y ∈ l1, s.vars y x = none) → s.vars c x = some v → l1.length < n →
    getLoop s x n d = some (.ok v)
  | [], c, l2, d, v, n + 1, h, _, hc, _ => by
    cases h.1
    rw [getLoop, hc]
  | y :: l1, c, l2, d, v, n + 1, h, hn, hc, hlt => by
    have hd : d = y := Option.some.inj h.1
    subst hd
    rw [getLoop, hn d (by simp)]
    have h2 := h.2
    cases hu : s.upper d with
    | none => rw [hu] at h2; cases l1 <;> cases h2.1
    | some u =>
      simp only
      rw [hu] at h2
      exact getLoop_seg h2 (fun y hy => hn y (by simp [hy])) hc (by simp at hlt; omega)
  | _, _, _, _, _, 0, _, _, _, h => by simp at h

/-- Who is assigned to. -/
theorem setLoop_seg {s s' : State V} {org : Nat} {x : Name} {v : V} : ∀ {n : Nat} {l : List Nat} {d : Nat},
    Seg s.upper (some d) l none → setLoop s org x v n d = some s' →
    (∃ l1 o l2, l = l1 ++ o :: l2 ∧ (∀ y ∈ l1, s.vars y x = none) ∧ s.vars o x ≠ none ∧ s' = s.setVar o x v) ∨
    ((∀ y ∈ l, s.vars y x = none) ∧ s' = s.setVar org x v)
  | n + 1, y :: l, d, h, e => by
    have hd : d = y := Option.some.inj h.1
    subst hd
    have h2 := h.2
    rw [setLoop] at e
    split at e
    · rename_i w hw
      cases e
      exact .inl ⟨[], d, l, rfl, by simp, by rw [hw]; simp, rfl⟩
    · rename_i hw
      cases hu : s.upper d with
      | none =>
        rw [hu] at e h2
        cases e
        cases l with
        | nil => exact .inr ⟨by simpa using hw, rfl⟩
        | cons _ _ => cases h2.1
      | some u =>
        rw [hu] at e h2
        rcases setLoop_seg h2 e with ⟨l1, o, l2, rfl, ha, hb, hc⟩ | ⟨ha, hc⟩
        · exact .inl ⟨d :: l1, o, l2, rfl, by simpa using ⟨hw, ha⟩, hb, hc⟩
        · exact .inr ⟨by simpa using ⟨hw, ha⟩, hc⟩
  | _, [], _, h, _ => by cases h

theorem includeLoop_spec {s' : State V} {sup : Option Nat} : ∀ {n : Nat} {s : State V} {i m : Nat} {l : List Nat},
    includeLoop n s i m sup = some s' → Seg s.upper (s.upper m) l none → (∀ y ∈ l, y < s.next ∧ y ≠ i) → i < s.next →
    (∀ a, s.next ≤ a → s.vars a = fun _ => none) →
    ∃ cs, Seg s'.upper (some i) (i :: cs) sup ∧ (∀ y < s.next, (y ≠ i → s'.upper y = s.upper y) ∧ s'.vars y = s.vars y ∧ s'.kind y = s.kind y) ∧
      s.next ≤ s'.next ∧ (∀ y ∈ cs, s.next ≤ y ∧ y < s'.next) ∧ (∀ y, s.next ≤ y → y < s'.next → y ∈ cs) ∧
      (∀ y ∈ cs, s'.kind y = .copy ∧ ∃ z ∈ l, s'.vars y = s.vars z) ∧ (∀ a, s'.next ≤ a → s'.vars a = fun _ => none)
  | n + 1, s, i, m, l, h, hl, hlt, hi, hf => by
    rw [includeLoop] at h
    split at h
    · cases h
      refine ⟨[], ⟨rfl, by simp [Seg, State.setUpper]⟩, ?_, Nat.le_refl _, by simp, ?_, by simp, hf⟩
      · intro y hy
        exact ⟨fun hne => by simp [State.setUpper, hne], rfl, rfl⟩
      · intro y h1 h2; exact absurd h2 (by simp [State.setUpper]; omega)
    · rename_i m' hm
      rw [hm] at hl
      cases l with
      | nil => cases hl
      | cons y l =>
        cases hl.1
        have hm' := hlt m' (by simp)
        have agree : ∀ y, y < s.next → y ≠ i → ((s.copy m').setUpper i (some s.next)).upper y = s.upper y := by
          intro y h1 h2
          have : y ≠ s.next := by omega
          simp [State.setUpper, State.copy, State.alloc, h2, this]
        have hvars : ∀ y, y < s.next → ((s.copy m').setUpper i (some s.next)).vars y = s.vars y := by
          intro y h1
          have : y ≠ s.next := by omega
          simp [State.setUpper, State.copy, State.alloc, this]
        have hl2 : Seg ((s.copy m').setUpper i (some s.next)).upper (((s.copy m').setUpper i (some s.next)).upper m') l none := by
          rw [agree m' hm'.1 hm'.2]
          exact Seg.congr hl.2 fun z hz => agree z (hlt z (by simp [hz])).1 (hlt z (by simp [hz])).2
        obtain ⟨cs, h1, h2, h3, h4, h5, h6, h7⟩ := includeLoop_spec h hl2
          (fun z hz => by
            have := hlt z (by simp [hz])
            exact ⟨by show z < s.next + 1; omega, by omega⟩) (by show s.next < s.next + 1; omega)
          (fun a ha => by
            have ha : s.next + 1 ≤ a := ha
            have : a ≠ s.next := by omega
            simp [State.setUpper, State.copy, State.alloc, this, hf a (by omega)])
        have hn1 : ((s.copy m').setUpper i (some s.next)).next = s.next + 1 := rfl
        rw [hn1] at h2 h3 h4 h5
        refine ⟨s.next :: cs, ⟨rfl, ?_⟩, ?_, by omega, ?_, ?_, ?_, h7⟩
        · have : s'.upper i = some s.next := by
            rw [(h2 i (by omega)).1 (by omega)]; simp [State.setUpper]
          rw [this]; exact h1
        · intro y hy
          refine ⟨fun hne => ?_, ?_, ?_⟩
          · rw [(h2 y (by omega)).1 (by omega), agree y hy hne]
          · rw [(h2 y (by omega)).2.1, hvars y hy]
          · rw [(h2 y (by omega)).2.2]
            have : y ≠ s.next := by omega
            simp [State.setUpper, State.copy, State.alloc, this]
        · intro y hy
          rcases List.mem_cons.1 hy with rfl | hy
          · omega
          · have := h4 y hy; omega
        · intro y hy1 hy2
          by_cases e : y = s.next
          · simp [e]
          · exact List.mem_cons_of_mem _ (h5 y (by omega) hy2)
        · intro y hy
          rcases List.mem_cons.1 hy with rfl | hy
          · refine ⟨?_, m', by simp, ?_⟩
            · rw [(h2 _ (by omega)).2.2]; simp [State.setUpper, State.copy, State.alloc]
            · rw [(h2 _ (by omega)).2.1]; simp [State.setUpper, State.copy, State.alloc]
          · obtain ⟨ha, z, hz, hb⟩ := h6 y hy
            exact ⟨ha, z, by simp [hz], by rw [hb, hvars z (hlt z (by simp [hz])).1]⟩

/-- `include`: copies of the module and of what is above it come right after the class. -/
theorem appendInclude_spec {s s' : State V} (w : WF s) {n c m : Nat} (hl : Legal s (.incl c m)) (h : appendInclude n s c m = some s') :
    ∃ cs, s'.upper c = some s.next ∧ Seg s'.upper (some s.next) cs (s.upper c) ∧
      (∀ y < s.next, (y ≠ c → s'.upper y = s.upper y) ∧ s'.vars y = s.vars y ∧ s'.kind y = s.kind y) ∧
      s.next ≤ s'.next ∧ (∀ y ∈ cs, s.next ≤ y ∧ y < s'.next) ∧ (∀ y, s.next ≤ y → y < s'.next → y ∈ cs) ∧
      (∀ y ∈ cs, s'.kind y = .copy ∧ ∃ z, z < s.next ∧ s.kind z ≠ .class ∧ s'.vars y = s.vars z) ∧ (∀ a, s'.next ≤ a → s'.vars a = fun _ => none) := by
  obtain ⟨hc, hm, hmod, hb, _⟩ := hl
  obtain ⟨l, hlm, hlt⟩ := w.chain m hm
  cases l with
  | nil => cases hlm
  | cons y l =>
    cases hlm.1
    have hcl : c ∉ m :: l := fun h' => hb ⟨_, hlm, h'⟩
    have agree : ∀ y, y < s.next → y ≠ c → ((s.copy m).setUpper c (some s.next)).upper y = s.upper y := by
      intro y h1 h2
      have : y ≠ s.next := by omega
      simp [State.setUpper, State.copy, State.alloc, h2, this]
    have hne : ∀ z ∈ m :: l, z ≠ c := by rintro z hz rfl; exact hcl hz
    have hvars : ∀ y, y < s.next → ((s.copy m).setUpper c (some s.next)).vars y = s.vars y := by
      intro y h1
      have : y ≠ s.next := by omega
      simp [State.setUpper, State.copy, State.alloc, this]
    have hn1 : ((s.copy m).setUpper c (some s.next)).next = s.next + 1 := rfl
    obtain ⟨cs, h1, h2, h3, h4, h5, h6, h7⟩ := includeLoop_spec (l := l) h
      (by
        rw [agree m hm (hne m (by simp))]
        exact Seg.congr hlm.2 fun z hz => agree z (hlt z (by simp [hz])) (hne z (by simp [hz])))
      (fun z hz => by have := hlt z (by simp [hz]); exact ⟨by show z < s.next + 1; omega, by omega⟩)
      (by show s.next < s.next + 1; omega)
      (fun a ha => by
        have ha : s.next + 1 ≤ a := ha
        have : a ≠ s.next := by omega
        simp [State.setUpper, State.copy, State.alloc, this, w.fresh a (by omega)])
    rw [hn1] at h2 h3 h4 h5
    have hmods := w.mods m _ hmod hm hlm
    refine ⟨s.next :: cs, ?_, h1, ?_, by omega, ?_, ?_, ?_, h7⟩
    · rw [(h2 c (by omega)).1 (by omega)]; simp [State.setUpper]
    · intro y hy
      refine ⟨fun hne => ?_, ?_, ?_⟩
      · rw [(h2 y (by omega)).1 (by omega), agree y hy hne]
      · rw [(h2 y (by omega)).2.1, hvars y hy]
      · rw [(h2 y (by omega)).2.2]
        have : y ≠ s.next := by omega
        simp [State.setUpper, State.copy, State.alloc, this]
    · intro y hy
      rcases List.mem_cons.1 hy with rfl | hy
      · omega
      · have := h4 y hy; omega
    · intro y hy1 hy2
      by_cases e : y = s.next
      · simp [e]
      · exact List.mem_cons_of_mem _ (h5 y (by omega) hy2)
    · intro y hy
      rcases List.mem_cons.1 hy with rfl | hy
      · refine ⟨?_, m, hm, by rw [hmod]; simp, ?_⟩
        · rw [(h2 _ (by omega)).2.2]; simp [State.setUpper, State.copy, State.alloc]
        · rw [(h2 _ (by omega)).2.1]; simp [State.setUpper, State.copy, State.alloc]
      · obtain ⟨ha, z, hz, hb⟩ := h6 y hy
        exact ⟨ha, z, hlt z (by simp [hz]), hmods z (by simp [hz]), by rw [hb, hvars z (hlt z (by simp [hz]))]⟩

/-- What a step does to the classes there were: chains only get copies of modules in them. -/
structure Grows (s s' : State V) : Prop where
  next : s.next ≤ s'.next
  kind : ∀ y < s.next, s'.kind y = s.kind y
  chain : ∀ a < s.next, ∀ l, Seg s.upper (some a) l none → (∀ y ∈ l, y < s.next) → ∃ l', Seg s'.upper (some a) l' none ∧
    (∀ y ∈ l', y < s'.next) ∧ (∀ y < s.next, y ∈ l' ↔ y ∈ l) ∧ (∀ y ∈ l', s.next ≤ y → s'.kind y = .copy)

theorem Grows.below {s s' : State V} (w : WF s) (g : Grows s s') {c d : Nat} (hc : c < s.next) (hd : d < s.next) :
    Below s' c d ↔ Below s c d := by
  obtain ⟨l, hl, hlt⟩ := w.chain d hd
  obtain ⟨l', hl', _, hm, _⟩ := g.chain d hd l hl hlt
  constructor
  · rintro ⟨k, hk, hck⟩
    rw [Seg.unique hk hl'] at hck
    exact ⟨l, hl, (hm c hc).1 hck⟩
  · rintro ⟨k, hk, hck⟩
    rw [Seg.unique hk hl] at hck
    exact ⟨l', hl', (hm c hc).2 hck⟩

theorem alloc_grows {s : State V} {u : Option Nat} {b : Kind} {t : Name → Option V} :
    Grows s (s.alloc u b t) := by
  refine ⟨Nat.le_succ _, fun y hy => ?_, fun a ha l hl hlt => ⟨l, ?_, ?_, fun _ _ => Iff.rfl, ?_⟩⟩
  · have : y ≠ s.next := by omega
    simp [State.alloc, this]
  · exact Seg.congr hl fun y hy => by
      have := hlt y hy
      have : y ≠ s.next := by omega
      simp [State.alloc, this]
  · intro y hy; exact Nat.lt_succ_of_lt (hlt y hy)
  · intro y hy h; have := hlt y hy; omega

theorem setVar_grows {s : State V} {o x v} : Grows s (s.setVar o x v) :=
  ⟨Nat.le_refl _, fun _ _ => rfl, fun _ _ l hl hlt => ⟨l, hl, hlt, fun _ _ => Iff.rfl, fun y hy h => absurd (hlt y hy) (by omega)⟩⟩

theorem setVar_WF {s : State V} (w : WF s) {o : Nat} (ho : o < s.next) {x v} : WF (s.setVar o x v) := by
  refine ⟨w.chain, ?_, w.mods⟩
  intro a ha
  have ha : s.next ≤ a := ha
  have : a ≠ o := by omega
  funext z
  simp [State.setVar, this, w.fresh a ha]

/-- The class to which an assignment goes is in the chain. -/
theorem set_shape {s s' : State V} (w : WF s) {n : Nat} {self : Self} {x : Name} {v : V} (hl : Legal s (.set self x v))
    (h : exec n s (.set self x v) = some s') : (s' = s ∧ self = .main) ∨ ∃ d o l, self.uses d ∧ Seg s.upper (some d) l none ∧ o ∈ l ∧ o < s.next ∧
      s' = s.setVar o x v ∧ ((∃ l1 l2, l = l1 ++ o :: l2 ∧ (∀ y ∈ l1, s.vars y x = none) ∧ s.vars o x ≠ none) ∨
        (o = d ∧ ∀ y ∈ l, s.vars y x = none)) := by
  have key : ∀ d, self.uses d → setLoop s d x v n d = some s' → ∃ o l, Seg s.upper (some d) l none ∧ o ∈ l ∧ o < s.next ∧
      s' = s.setVar o x v ∧ ((∃ l1 l2, l = l1 ++ o :: l2 ∧ (∀ y ∈ l1, s.vars y x = none) ∧ s.vars o x ≠ none) ∨
        (o = d ∧ ∀ y ∈ l, s.vars y x = none)) := by
    intro d hd e
    obtain ⟨l, hs, hlt⟩ := w.chain d (hl d hd).1
    rcases setLoop_seg hs e with ⟨l1, o, l2, rfl, ha, hb, hc⟩ | ⟨ha, hc⟩
    · exact ⟨o, _, hs, by simp, hlt o (by simp), hc, .inl ⟨l1, l2, rfl, ha, hb⟩⟩
    · refine ⟨d, l, hs, ?_, (hl d hd).1, hc, .inr ⟨rfl, ha⟩⟩
      cases l with
      | nil => cases hs
      | cons y l => cases hs.1; simp
  cases self with
  | main => left; exact ⟨by simpa [exec, set] using h.symm, rfl⟩
  | «instance» c =>
    right
    have e : setLoop s c x v n c = some s' := by
      simp only [exec, set] at h
      cases hq : setLoop s c x v n c with
      | none => rw [hq] at h; cases h
      | some q => rw [hq] at h; simpa using h
    obtain ⟨o, l, h1⟩ := key c rfl e
    exact ⟨c, o, l, rfl, h1⟩
  | «class» c =>
    right
    have e : setLoop s c x v n c = some s' := by
      simp only [exec, set] at h
      cases hq : setLoop s c x v n c with
      | none => rw [hq] at h; cases h
      | some q => rw [hq] at h; simpa using h
    obtain ⟨o, l, h1⟩ := key c rfl e
    exact ⟨c, o, l, rfl, h1⟩

theorem incl_grows {s s' : State V} (w : WF s) {n c m : Nat} (hl : Legal s (.incl c m)) (h : appendInclude n s c m = some s') :
    Grows s s' ∧ WF s' := by
  obtain ⟨cs, h1, h2, h3, h4, h5, h6, h7, h8⟩ := appendInclude_spec w hl h
  have hcn : c < s.next := hl.1
  have grow : ∀ a < s.next, ∀ l, Seg s.upper (some a) l none → (∀ y ∈ l, y < s.next) → ∃ l', Seg s'.upper (some a) l' none ∧
      (∀ y ∈ l', y < s'.next) ∧ (∀ y < s.next, y ∈ l' ↔ y ∈ l) ∧ (∀ y ∈ l', s.next ≤ y → s'.kind y = .copy) := by
    intro a ha l hs hlt
    by_cases hcl : c ∈ l
    · obtain ⟨l1, l2, rfl⟩ := List.append_of_mem hcl
      have hnd := Seg.nodup hs
      obtain ⟨b, hs1, hs2⟩ := Seg.split hs
      have hb : b = some c := hs2.1
      subst hb
      have hd : ∀ y ∈ l1 ++ l2, y ≠ c := by
        rintro y hy rfl
        rw [List.nodup_append] at hnd
        rcases List.mem_append.1 hy with hy | hy
        · exact hnd.2.2 y hy y (by simp) rfl
        · exact (List.nodup_cons.1 hnd.2.1).1 hy
      refine ⟨l1 ++ c :: (cs ++ l2), ?_, ?_, ?_, ?_⟩
      · refine Seg.append (Seg.congr hs1 fun y hy => (h3 y (hlt y (by simp [hy]))).1 (hd y (by simp [hy]))) ⟨rfl, ?_⟩
        rw [h1]
        exact Seg.append h2 (Seg.congr hs2.2 fun y hy => (h3 y (hlt y (by simp [hy]))).1 (hd y (by simp [hy])))
      · intro y hy
        simp only [List.mem_append, List.mem_cons] at hy
        rcases hy with hy | rfl | hy | hy
        · have := hlt y (by simp [hy]); omega
        · omega
        · exact (h5 y hy).2
        · have := hlt y (by simp [hy]); omega
      · intro y hy
        have : y ∉ cs := fun hc => by have := (h5 y hc).1; omega
        simp [this]
      · intro y hy hge
        simp only [List.mem_append, List.mem_cons] at hy
        rcases hy with hy | rfl | hy | hy
        · have := hlt y (by simp [hy]); omega
        · omega
        · exact (h7 y hy).1
        · have := hlt y (by simp [hy]); omega
    · refine ⟨l, Seg.congr hs fun y hy => (h3 y (hlt y hy)).1 ?_, fun y hy => by have := hlt y hy; omega, fun _ _ => Iff.rfl,
        fun y hy hge => absurd (hlt y hy) (by omega)⟩
      rintro rfl; exact hcl hy
  have g : Grows s s' := ⟨h4, fun y hy => (h3 y hy).2.2, grow⟩
  -- the copies
  have fromCopy : ∀ a, s.next ≤ a → a < s'.next → ∃ l1 l2, Seg s'.upper (some a) (l1 ++ l2) none ∧ (∀ y ∈ l1, y ∈ cs) ∧
      (∀ y ∈ l1 ++ l2, y < s'.next) ∧ True := by
    intro a h9 h10
    have ha := h6 a h9 h10
    obtain ⟨c1, c2, rfl⟩ := List.append_of_mem ha
    obtain ⟨b, _, hs2⟩ := Seg.split h2
    have hb : b = some a := hs2.1
    subst hb
    obtain ⟨lc, hlc, hltc⟩ := w.chain c hcn
    cases lc with
    | nil => cases hlc
    | cons y lc =>
      cases hlc.1
      have hnd := (List.nodup_cons.1 (Seg.nodup hlc)).1
      refine ⟨a :: c2, lc, Seg.append hs2 (Seg.congr hlc.2 fun y hy => (h3 y (hltc y (by simp [hy]))).1 ?_), ?_, ?_, ?_⟩
      · rintro rfl; exact hnd hy
      · intro y hy; exact List.mem_append_right _ hy
      · intro y hy
        rcases List.mem_append.1 hy with hy | hy
        · exact (h5 y (List.mem_append_right _ hy)).2
        · have := hltc y (by simp [hy]); omega
      · trivial
  refine ⟨g, ⟨?_, h8, ?_⟩⟩
  · intro a ha
    by_cases hn : a < s.next
    · obtain ⟨l, hs, hlt⟩ := w.chain a hn
      obtain ⟨l', a1, a2, _⟩ := grow a hn l hs hlt
      exact ⟨l', a1, a2⟩
    · obtain ⟨l1, l2, b1, _, b3, _⟩ := fromCopy a (by omega) ha
      exact ⟨_, b1, b3⟩
  · intro a l hk ha hs y hy
    have hn : a < s.next := by
      by_contra hge
      rw [(h7 a (h6 a (by omega) ha)).1] at hk; cases hk
    obtain ⟨k, hks, hkt⟩ := w.chain a hn
    obtain ⟨l', a1, a2, a3, a4⟩ := grow a hn k hks hkt
    rw [Seg.unique hs a1] at hy
    by_cases hy' : y < s.next
    · rw [(h3 y hy').2.2]
      exact w.mods a k (by rw [← (h3 a hn).2.2]; exact hk) hn hks y ((a3 y hy').1 hy)
    · rw [a4 y hy (by omega)]; simp

theorem exec_grows {s s' : State V} (w : WF s) {n : Nat} {op : Op V} (hl : Legal s op) (h : exec n s op = some s') :
    Grows s s' ∧ WF s' := by
  have new : ∀ (u : Option Nat) (k : Kind), k ≠ .copy → (∀ z, u = some z → z < s.next) → (k = .module → u = none) →
      WF (s.alloc u k fun _ => none) := by
    intro u k hk hu hmod
    have hg : Grows s (s.alloc u k fun _ => none) := alloc_grows
    have hchain : ∃ l, Seg (s.alloc u k fun _ => none).upper (some s.next) (s.next :: l) none ∧ (∀ y ∈ l, y < s.next) ∧ (u = none → l = []) := by
      cases u with
      | none => exact ⟨[], ⟨rfl, by simp [Seg, State.alloc]⟩, by simp, fun _ => rfl⟩
      | some z =>
        obtain ⟨l, hs, hlt⟩ := w.chain z (hu z rfl)
        refine ⟨l, ⟨rfl, ?_⟩, hlt, by simp⟩
        have : (s.alloc (some z) k fun _ => none).upper s.next = some z := by simp [State.alloc]
        rw [this]
        refine Seg.congr hs fun y hy => ?_
        have := hlt y hy
        have : y ≠ s.next := by omega
        simp [State.alloc, this]
    refine ⟨?_, ?_, ?_⟩
    · intro a ha
      have ha : a < s.next + 1 := ha
      by_cases hn : a < s.next
      · obtain ⟨l, hs, hlt⟩ := w.chain a hn
        obtain ⟨l', a1, a2, _⟩ := hg.chain a hn l hs hlt
        exact ⟨l', a1, a2⟩
      · obtain rfl : a = s.next := by omega
        obtain ⟨l, h1, h2, _⟩ := hchain
        refine ⟨_, h1, ?_⟩
        intro y hy
        show y < s.next + 1
        rcases List.mem_cons.1 hy with rfl | hy
        · omega
        · have := h2 y hy; omega
    · intro a ha
      have ha : s.next + 1 ≤ a := ha
      have : a ≠ s.next := by omega
      simp [State.alloc, this, w.fresh a (by omega)]
    · intro a l hka ha hs y hy
      have ha : a < s.next + 1 := ha
      by_cases hn : a < s.next
      · obtain ⟨l0, hs0, hlt⟩ := w.chain a hn
        have hne : ∀ z ∈ l0, (s.alloc u k fun _ => none).upper z = s.upper z := by
          intro z hz
          have := hlt z hz
          have : z ≠ s.next := by omega
          simp [State.alloc, this]
        rw [Seg.unique hs (Seg.congr hs0 hne)] at hy
        have h1 : y ≠ s.next := by have := hlt y hy; omega
        have h2 : a ≠ s.next := by omega
        simp only [State.alloc, if_neg h1, if_neg h2] at hka ⊢
        exact w.mods a l0 hka hn hs0 y hy
      · obtain rfl : a = s.next := by omega
        have hk' : k = .module := by simpa [State.alloc] using hka
        obtain ⟨l2, h1, _, h3⟩ := hchain
        rw [Seg.unique hs h1, h3 (hmod hk')] at hy
        obtain rfl : y = s.next := by simpa using hy
        simp [State.alloc, hk']
  cases op with
  | newClass sup => cases h; exact ⟨alloc_grows, new _ _ (by simp) (fun z hz => (hl z hz).1) (by simp)⟩
  | newModule => cases h; exact ⟨alloc_grows, new _ _ (by simp) (by simp) (by simp)⟩
  | incl c m => exact incl_grows w hl h
  | set self x v =>
    rcases set_shape w hl h with ⟨rfl, _⟩ | ⟨d, o, l, _, _, _, ho, rfl, _⟩
    · exact ⟨⟨Nat.le_refl _, fun _ _ => rfl, fun _ _ l hl hlt => ⟨l, hl, hlt, fun _ _ => Iff.rfl, fun y hy h => absurd (hlt y hy) (by omega)⟩⟩, w⟩
    · exact ⟨setVar_grows, setVar_WF w ho⟩

theorem Built.wf {s : State V} (h : Built s) : WF s := by
  induction h with
  | start => exact ⟨by intro a ha; exact absurd ha (by simp), fun _ _ => rfl, by intro a l hk; cases hk⟩
  | step _ hl he ih => exact (exec_grows ih hl he).2

/-- The invariant of a run: only `c` has the variable, of all classes below and above it, and no module has it. -/
structure Holds (c : Nat) (x : Name) (s : State V) (v : V) : Prop where
  wf : WF s
  lt : c < s.next
  cls : s.kind c = .class
  val : s.vars c x = some v
  alone : ∀ y < s.next, s.vars y x ≠ none → y = c ∨ (s.kind y = .class ∧ ¬ Below s c y ∧ ¬ Below s y c)

theorem Holds.first {c x} {s : State V} {v : V} (h : Holds c x s v) {d : Nat} (hdn : d < s.next) (hd : Below s c d) :
    ∃ l1 l2, Seg s.upper (some d) (l1 ++ c :: l2) none ∧ ∀ y ∈ l1, s.vars y x = none := by
  obtain ⟨l, hs, hc⟩ := hd
  obtain ⟨l0, hs0, hlt⟩ := h.wf.chain d hdn
  rw [Seg.unique hs0 hs] at hlt
  obtain ⟨l1, l2, rfl⟩ := List.append_of_mem hc
  refine ⟨l1, l2, hs, ?_⟩
  intro y hy
  by_contra hne
  have hb := below_mid hs hy
  rcases h.alone y (hlt y (by simp [hy])) hne with rfl | ⟨_, hn, _⟩
  · have := Seg.nodup hs
    rw [List.nodup_append] at this
    exact this.2.2 y hy y (by simp) rfl
  · exact hn hb

/-- Of two classes in a chain one is below the other. -/
theorem chain_total {s : State V} {d : Nat} {l : List Nat} (hs : Seg s.upper (some d) l none) {a b : Nat} (ha : a ∈ l) (hb : b ∈ l) :
    Below s a b ∨ Below s b a := by
  obtain ⟨l1, l2, rfl⟩ := List.append_of_mem ha
  rcases List.mem_append.1 hb with hb | hb
  · exact .inl (below_mid hs hb)
  · obtain ⟨e, _, h2⟩ := Seg.split hs
    have : e = some a := h2.1
    subst this
    exact .inr ⟨_, h2, hb⟩

/-- A step that does not assign `x`. -/
theorem Holds.quiet {c x} {s s' : State V} {v : V} (h : Holds c x s v) (g : Grows s s') (w : WF s')
    (old : ∀ y < s.next, s'.vars y x = s.vars y x) (new : ∀ y, s.next ≤ y → y < s'.next → s'.vars y x = none) : Holds c x s' v := by
  refine ⟨w, Nat.lt_of_lt_of_le h.lt g.next, by rw [g.kind c h.lt]; exact h.cls, by rw [old c h.lt]; exact h.val, ?_⟩
  intro y hy hne
  by_cases hn : y < s.next
  · rw [old y hn] at hne
    rcases h.alone y hn hne with rfl | ⟨h1, h2, h3⟩
    · exact .inl rfl
    · exact .inr ⟨by rw [g.kind y hn]; exact h1, by rw [g.below h.wf h.lt hn]; exact h2, by rw [g.below h.wf hn h.lt]; exact h3⟩
  · exact absurd (new y (by omega) hy) hne

/-- The step of `Holds`. -/
theorem Holds.step {c x} {s s' : State V} {v : V} (h : Holds c x s v) {n : Nat} {op : Op V} (hl : Legal s op) (ha : Apart s c x op)
    (he : exec n s op = some s') :
    (∃ self d w, op = .set self x w ∧ self.uses d ∧ Below s c d ∧ Holds c x s' w) ∨
    ((∀ self w d, op = .set self x w → self.uses d → ¬ Below s c d) ∧ Holds c x s' v) := by
  obtain ⟨g, w⟩ := exec_grows h.wf hl he
  cases op with
  | newClass sup =>
    refine .inr ⟨by simp, h.quiet g w ?_ ?_⟩ <;> cases he
    · intro y hy
      have : y ≠ s.next := by omega
      simp [State.alloc, this]
    · intro y h1 h2
      have h2 : y < s.next + 1 := h2
      obtain rfl : y = s.next := by omega
      simp [State.alloc]
  | newModule =>
    refine .inr ⟨by simp, h.quiet g w ?_ ?_⟩ <;> cases he
    · intro y hy
      have : y ≠ s.next := by omega
      simp [State.alloc, this]
    · intro y h1 h2
      have h2 : y < s.next + 1 := h2
      obtain rfl : y = s.next := by omega
      simp [State.alloc]
  | incl k m =>
    obtain ⟨cs, _, _, h3, _, _, h6, h7, _⟩ := appendInclude_spec h.wf hl he
    refine .inr ⟨by simp, h.quiet g w (fun y hy => by rw [(h3 y hy).2.1]) ?_⟩
    intro y h1 h2
    obtain ⟨_, z, hz, hk, hv⟩ := h7 y (h6 y h1 h2)
    rw [hv]
    by_contra hne
    rcases h.alone z hz hne with rfl | ⟨hk', _⟩
    · exact hk h.cls
    · exact hk hk'
  | set self y u =>
    by_cases hxy : y = x
    · subst hxy
      rcases set_shape h.wf hl he with ⟨rfl, rfl⟩ | ⟨d, o, l, hd, hs, hol, ho, rfl, hcase⟩
      · refine .inr ⟨?_, h⟩
        rintro self' w' d' ⟨⟩ hd'
        exact hd'.elim
      · have huse : ∀ d', self.uses d' → d' = d := by
          intro d' hd'
          cases self with
          | main => exact hd.elim
          | «instance» k => exact hd'.symm.trans hd
          | «class» k => exact hd'.symm.trans hd
        by_cases hb : Below s c d
        · obtain ⟨l', hs', hcl⟩ := hb
          rw [Seg.unique hs' hs] at hcl
          have hoc : o = c := by
            rcases hcase with ⟨l1, l2, rfl, hl1, hov⟩ | ⟨_, hall⟩
            · rcases h.alone o ho hov with rfl | ⟨_, h1, h2⟩
              · rfl
              · rcases chain_total hs hol hcl with h3 | h3
                · exact absurd h3 h2
                · exact absurd h3 h1
            · have := hall c hcl; rw [h.val] at this; cases this
          subst hoc
          refine .inl ⟨self, d, u, rfl, hd, ⟨l', hs', by rw [Seg.unique hs' hs]; exact hcl⟩, w, h.lt, h.cls, by simp [State.setVar], ?_⟩
          intro z hz hne
          by_cases hzc : z = o
          · exact .inl hzc
          · have : s.vars z y ≠ none := by simpa [State.setVar, hzc] using hne
            exact h.alone z hz this
        · refine .inr ⟨?_, ?_⟩
          · rintro self' w' d' ⟨⟩ hd'
            rw [huse d' hd']; exact hb
          have hco : o ≠ c := by
            rintro rfl
            exact hb ⟨l, hs, hol⟩
          refine ⟨w, h.lt, h.cls, by simp [State.setVar, Ne.symm hco, h.val], ?_⟩
          intro z hz hne
          by_cases hzo : z = o
          · subst hzo
            rcases hcase with ⟨l1, l2, rfl, hl1, hov⟩ | ⟨rfl, hall⟩
            · exact h.alone z hz hov
            · obtain ⟨a1, a2⟩ := ha rfl z hd
              refine .inr ⟨a1, hb, fun hbz => ?_⟩
              exact hco (a2 hbz)
          · have : s.vars z y ≠ none := by simpa [State.setVar, hzo] using hne
            exact h.alone z hz this
    · refine .inr ⟨by intro _ _ _ e; cases e; exact absurd rfl hxy, ?_⟩
      rcases set_shape h.wf hl he with ⟨rfl, _⟩ | ⟨d, o, l, hd, hs, hol, ho, rfl, hcase⟩
      · exact h
      · refine h.quiet g w ?_ ?_
        · intro z _
          simp [State.setVar, Ne.symm hxy]
        · intro z h1 h2
          exact absurd h2 (by show ¬ z < s.next; omega)

theorem History.holds {c x} {s s' : State V} {v v' : V} (h : Holds c x s v) (r : History c x s v s' v') : Holds c x s' v' := by
  induction r with
  | nil => exact h
  | assign _ hl hd hb ha he ih =>
    rcases ih.step hl ha he with ⟨self', d', w', e, _, _, h'⟩ | ⟨hn, _⟩
    · cases e; exact h'
    · exact absurd hb (hn _ _ _ rfl hd)
  | other _ hl ha hno he ih =>
    rcases ih.step hl ha he with ⟨self', d', w', e, hd', hb, h'⟩ | ⟨_, h'⟩
    · exact absurd hb (hno self' w' d' e hd')
    · exact h'

theorem get_uses {s : State V} {self : Self} {d : Nat} (h : self.uses d) (n : Nat) (x : Name) : get n s self x = getLoop s x n d := by
  cases self with
  | main => exact h.elim
  | «instance» c => cases h; rfl
  | «class» c => cases h; rfl

/-! ## C90 -/

/-- A class variable that a class `c` assigns first belongs to `c` and all classes below it: whatever the program does then
(make classes and modules, include modules, assign variables), the class, the classes below it and their instances read the
value that one of them has assigned last.  Missing: assignments by modules and by classes above `c`, and the code whose `self`
is not of the class it is written in (the `_fails` theorems). -/
theorem C90_shared_partial {c : Nat} {x : Name} {s s1 s' : State V} {v v' : V} {self : Self} {n : Nat}
    (hs : Built s) (hfirst : ∀ y, s.vars y x = none) (hk : s.kind c = .class) (hself : self.uses c)
    (hl : Legal s (.set self x v)) (he : exec n s (.set self x v) = some s1) (r : History c x s1 v s' v')
    {d : Nat} (hd : d < s'.next) (hb : Below s' c d) {self' : Self} (hself' : self'.uses d) :
    ∃ N, ∀ n ≥ N, get n s' self' x = some (.ok v') := by
  have h1 : Holds c x s1 v := by
    have hc := (hl c hself).1
    obtain ⟨g, w⟩ := exec_grows hs.wf hl he
    rcases set_shape hs.wf hl he with ⟨rfl, rfl⟩ | ⟨d', o, l, hd', hseg, hol, ho, rfl, hcase⟩
    · exact hself.elim
    · have hoc : o = c := by
        rcases hcase with ⟨l1, l2, rfl, hl1, hov⟩ | ⟨rfl, _⟩
        · exact absurd (hfirst o) hov
        · cases self with
          | main => exact hself.elim
          | «instance» k => exact hd'.symm.trans hself
          | «class» k => exact hd'.symm.trans hself
      subst hoc
      refine ⟨w, hc, hk, by simp [State.setVar], ?_⟩
      intro y hy hne
      by_cases hyo : y = o
      · exact .inl hyo
      · exact absurd (by simp [State.setVar, hyo, hfirst y]) hne
  have h2 := r.holds h1
  obtain ⟨l1, l2, hseg, hnone⟩ := h2.first hd hb
  refine ⟨l1.length + 1, fun n hn => ?_⟩
  rw [get_uses hself']
  exact getLoop_seg hseg hnone h2.val (by omega)

/-- What was assigned is read again, in every state; and other variables keep their values for everyone. -/
theorem C90_assigned {s s' : State V} {self : Self} {x : Name} {v : V} {n : Nat} (hs : Built s) (hl : Legal s (.set self x v))
    (he : exec n s (.set self x v) = some s') :
    (self ≠ .main → ∃ N, ∀ n ≥ N, get n s' self x = some (.ok v)) ∧
    ∀ n other y, y ≠ x → get n s' other y = get n s other y := by
  rcases set_shape hs.wf hl he with ⟨rfl, rfl⟩ | ⟨d, o, l, hd, hseg, hol, ho, rfl, hcase⟩
  · exact ⟨fun h => absurd rfl h, fun _ _ _ _ => rfl⟩
  · constructor
    · intro _
      have : ∃ l1 l2, l = l1 ++ o :: l2 ∧ ∀ y ∈ l1, s.vars y x = none := by
        rcases hcase with ⟨l1, l2, rfl, hl1, _⟩ | ⟨rfl, hall⟩
        · exact ⟨l1, l2, rfl, hl1⟩
        · obtain ⟨l1, l2, rfl⟩ := List.append_of_mem hol
          exact ⟨l1, l2, rfl, fun y hy => hall y (by simp [hy])⟩
      obtain ⟨l1, l2, rfl, hl1⟩ := this
      refine ⟨l1.length + 1, fun n hn => ?_⟩
      rw [get_uses hd]
      refine getLoop_seg (c := o) (l1 := l1) (l2 := l2) hseg ?_ (by simp [State.setVar]) (by omega)
      intro y hy
      have hne : y ≠ o := by
        rintro rfl
        have := Seg.nodup hseg
        rw [List.nodup_append] at this
        exact this.2.2 y hy y (by simp) rfl
      simp [State.setVar, hne, hl1 y hy]
    · intro n other y hy
      have key : ∀ (n c : Nat), getLoop (s.setVar o x v) y n c = getLoop s y n c := by
        intro n
        induction n with
        | zero => intro c; rfl
        | succ n ih =>
          intro c
          have : (s.setVar o x v).vars c y = s.vars c y := by simp [State.setVar, hy]
          rw [getLoop, getLoop, this]
          simp only [ih]; rfl
      cases other with
      | main => rfl
      | «instance» c => exact key n c
      | «class» c => exact key n c

/-- A variable that nobody has assigned raises a NameError; at the top level every use raises. -/
theorem C90_unassigned {s : State V} {x : Name} (hs : Built s) (hx : ∀ y, s.vars y x = none) :
    (∀ self d, self.uses d → d < s.next → ∃ N, ∀ n ≥ N, get n s self x = some .nameError) ∧
    ∀ n v, get n s .main x = some .runtimeError ∧ set n s .main x v = some .runtimeError := by
  refine ⟨?_, fun _ _ => ⟨rfl, rfl⟩⟩
  intro self d hd hlt
  obtain ⟨l, hseg, -⟩ := hs.wf.chain d hlt
  refine ⟨l.length, fun n hn => ?_⟩
  rw [get_uses hd]
  clear hd hlt
  induction l generalizing d n with
  | nil => cases hseg
  | cons y l ih =>
    have hdy : d = y := Option.some.inj hseg.1
    subst hdy
    have h2 := hseg.2
    obtain ⟨n, rfl⟩ : ∃ k, n = k + 1 := ⟨n - 1, by simp at hn; omega⟩
    rw [getLoop, hx d]
    cases hu : s.upper d with
    | none => rfl
    | some u =>
      rw [hu] at h2
      exact ih u h2 n (by simp at hn; omega)

/-- `class_variables(false)` tells which variables there are: `@@x` has a value in class `d` exactly if one of its ancestors
(with the copies of included modules) lists it.
Missing: `class_variables` without an argument and with `true` (`C90_class_variables_fails`). -/
theorem C90_class_variables_partial {s : State V} (hs : Built s) {d : Nat} (hd : d < s.next) (x : Name) :
    (∃ v N, ∀ n ≥ N, get n s (.class d) x = some (.ok v)) ↔
      ∃ c f, Below s c d ∧ class_variables s c [false] = .names f ∧ f x = true := by
  constructor
  · rintro ⟨v, N, h⟩
    obtain ⟨l, hseg, -⟩ := hs.wf.chain d hd
    by_contra hn
    have hall : ∀ y ∈ l, s.vars y x = none := by
      intro y hy
      cases hv : s.vars y x with
      | none => rfl
      | some w => exact absurd ⟨y, _, ⟨l, hseg, hy⟩, rfl, by simp [hv]⟩ hn
    have key : ∀ (l : List Nat) (d n : Nat), Seg s.upper (some d) l none → (∀ y ∈ l, s.vars y x = none) → l.length ≤ n →
        getLoop s x n d = some .nameError := by
      intro l
      induction l with
      | nil => intro d n h; cases h
      | cons y l ih =>
        intro d n h ha hl
        obtain rfl : d = y := Option.some.inj h.1
        obtain ⟨n, rfl⟩ : ∃ k, n = k + 1 := ⟨n - 1, by simp at hl; omega⟩
        have h2 := h.2
        rw [getLoop, ha d (by simp)]
        cases hu : s.upper d with
        | none => rfl
        | some u =>
          rw [hu] at h2
          exact ih u n h2 (fun y hy => ha y (by simp [hy])) (by simp at hl; omega)
    have h1 := h (N + l.length) (by omega)
    have h2 := key l d (N + l.length) hseg hall (by omega)
    simp only [get] at h1
    rw [h1] at h2
    cases h2
  · rintro ⟨c, f, ⟨l, hseg, hc⟩, hf, hx⟩
    cases hf
    have first : ∀ l : List Nat, c ∈ l → ∃ l1 o l2, l = l1 ++ o :: l2 ∧ (∀ y ∈ l1, s.vars y x = none) ∧ (s.vars o x).isSome := by
      intro l
      induction l with
      | nil => intro h; cases h
      | cons y l ih =>
        intro h
        cases hy : s.vars y x with
        | some w => exact ⟨[], y, l, rfl, by simp, by simp [hy]⟩
        | none =>
          have : c ∈ l := by
            rcases List.mem_cons.1 h with rfl | h
            · simp [hy] at hx
            · exact h
          obtain ⟨l1, o, l2, rfl, a, b⟩ := ih this
          refine ⟨y :: l1, o, l2, rfl, ?_, b⟩
          intro z hz
          rcases List.mem_cons.1 hz with rfl | hz
          · exact hy
          · exact a z hz
    obtain ⟨l1, o, l2, rfl, a, b⟩ := first l hc
    obtain ⟨v, hv⟩ := Option.isSome_iff_exists.1 b
    exact ⟨v, l1.length + 1, fun n hn => getLoop_seg hseg a hv (by omega)⟩

/-- `A` at 0 with `@@7`, `B < A` at 1: `@@7` is listed by `A`, not by `B`. -/
example : ((exec 5 (({} : State Nat).alloc none .class fun _ => none) (.set (.class 0) 7 1)).map fun s =>
    (match class_variables s 0 [false], class_variables s 1 [false] with
     | .names f, .names g => (f 7, g 7, f 8)
     | _, _ => (false, true, true))) = some (true, false, false) := by decide

/-- Without an argument `class_variables` raises an ArgumentError, and with `true` the interpreter panics; Ruby lists the
variables of the ancestors, too. -/
theorem C90_class_variables_fails (s : State V) (c : Nat) :
    class_variables s c [] = .argumentError ∧ class_variables s c [true] = .panic := ⟨rfl, rfl⟩

/-- A sequence of steps. -/
def run (n : Nat) : State V → List (Op V) → Option (State V)
  | s, [] => some s
  | s, op :: ops => (exec n s op).bind fun s => run n s ops

/-- Three classes, each below the one before it, and a module included in the second; the first assigns, an instance of the
third assigns, everyone reads the new value. -/
example : ((run 5 ({} : State Nat) [.newClass none, .newClass (some 0), .newModule, .incl 1 2, .newClass (some 1),
    .set (.class 0) 7 10, .set (.instance 4) 7 20]).bind fun s => get 9 s (.class 0) 7) = some (.ok 20) := by decide

example : ∃ s s1 s' : State Nat, Built s ∧ (∀ y, s.vars y 7 = none) ∧ exec 5 s (.set (.class 0) 7 10) = some s1 ∧
    History 0 7 s1 10 s' 20 ∧ Below s' 0 1 := by
  refine ⟨_, _, _, .step (.step .start (op := .newClass none) (n := 5) (by simp [Legal]) rfl) (op := .newClass (some 0)) (n := 5) ?_ rfl,
    ?_, rfl, .assign (n := 5) (self := .instance 1) (d := 1) .nil ?_ rfl ?_ ?_ rfl, ?_⟩
  · intro u hu; cases hu; exact ⟨by decide, by decide⟩
  · intro y; simp [State.alloc]
  · intro u hu; cases hu; exact ⟨by decide, by decide⟩
  · exact ⟨[1, 0], ⟨rfl, rfl, rfl⟩, by simp⟩
  · intro _ d hd; cases hd
    refine ⟨by decide, ?_⟩
    rintro ⟨l, hl, h1⟩
    have : l = [0] := Seg.unique hl ⟨rfl, rfl⟩
    subst this
    simpa using h1
  · exact ⟨[1, 0], ⟨rfl, rfl, rfl⟩, by simp⟩

/-- A class variable belongs to the class of `self`, not to the class the code is written in: `class A; def put; @@x = 1; end;
def look; @@x; end; end; class B < A; end; B.new.put; A.new.look` raises a NameError (Ruby: 1). -/
theorem C90_lexical_fails : ((run 5 ({} : State Nat) [.newClass none, .newClass (some 0), .set (.instance 1) 7 1]).bind fun s =>
    get 9 s (.instance 0) 7) = some .nameError := by decide

/-- `include` copies the class variables of a module: a later assignment in the module is not seen in the class, and one in the
class is not seen in the module. -/
theorem C90_module_fails : ((run 5 ({} : State Nat) [.newModule, .set (.class 0) 7 1, .newClass none, .incl 1 0,
      .set (.class 0) 7 2]).bind fun s => get 9 s (.class 1) 7) = some (.ok 1) ∧
    ((run 5 ({} : State Nat) [.newModule, .set (.class 0) 7 1, .newClass none, .incl 1 0,
      .set (.class 1) 7 2]).bind fun s => get 9 s (.class 0) 7) = some (.ok 1) := by decide

/-- After an assignment further up the class below has a variable of its own (Ruby raises "class variable overtaken"). -/
theorem C90_overtaken_fails : ((run 5 ({} : State Nat) [.newClass none, .newClass (some 0), .set (.class 1) 7 1,
    .set (.class 0) 7 2]).bind fun s => get 9 s (.class 1) 7) = some (.ok 1) := by decide

end Verif.Class.Vars
