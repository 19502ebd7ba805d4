import Mathlib.Data.List.Nodup
/-! # Classes, modules, method lookup and its caches

Model of `ruruby/src/value/class.rs`, of the parts of `globals.rs`, `value/value.rs`, `value/rvalue.rs`,
`builtin/module.rs` and `vm/executor.rs` that walk class chains, and of the method caches of `globals/method.rs`.
Objects live at addresses.  Loops of the program run on fuel: the answer `none` of a fuelled function means that the
loop did not end within the fuel. -/
namespace Verif.Class

/-- An address. -/
scoped notation "Addr" => Nat
abbrev Id := Nat
abbrev Fn := Nat
abbrev Val := Nat

/-- What happened to the class graph, latest first.  It is a ghost: no function of the model reads it. -/
inductive Event
  /-- a class (or singleton class) `c` with this superclass was made -/
  | cls (c : Addr) (sup : Option Addr)
  /-- a module was made -/
  | mod (m : Addr)
  /-- `c.include(m)` -/
  | incl (c m : Addr)
  /-- `c.prepend(m)` -/
  | prep (c m : Addr)
  /-- method `name` of `c` was defined -/
  | defm (c : Addr) (name : Id) (f : Fn)
  /-- constant `c::name` was set -/
  | setc (c : Addr) (name : Id) (v : Val)
  deriving DecidableEq, Repr

/-- `ClassInfo` with its `ClassFlags` (value/class.rs:308-312, 613-660).  `ext` is the address of the shared
`ClassExt`. -/
structure Info where
  upper : Option Addr := none
  isModule : Bool := false
  included : Bool := false
  prepended : Bool := false
  ext : Addr := 0
  deriving DecidableEq, Repr, Inhabited

/-- `ClassExt` (value/class.rs:662-670).  Simplified: the tables are partial functions (their order is not observed
here), the name is left out, a constant is never `ConstEntry::Autoload`. -/
structure Ext where
  methods : Id → Option Fn := fun _ => none
  consts : Id → Option Val := fun _ => none
  singletonFor : Option Addr := none
  origin : Option Addr := none

instance : Inhabited Ext := ⟨{}⟩

/-- The part of an `RValue` that matters here (value/rvalue.rs:14-22): the class field, and the class information if
the object is a class or module. -/
structure Obj where
  cls : Addr := 0
  info : Option Info := none
  deriving Inhabited

structure Heap where
  next : Addr
  obj : Addr → Obj
  ext : Addr → Ext
  /-- ghost -/
  log : List Event

/-- `Module` dereferences to the class information (value/class.rs:26-32). -/
def Heap.info (h : Heap) (a : Addr) : Info := ((h.obj a).info).getD default

/-- Overwrite one entry of a table. -/
def upd {α : Type} (f : Addr → α) (a : Addr) (v : α) : Addr → α := fun x => if x = a then v else f x

/-- Assignment to a field of the class information of `a` (`DerefMut`, value/class.rs:34-39). -/
def Heap.setInfo (h : Heap) (a : Addr) (i : Info) : Heap :=
  { h with obj := upd h.obj a { h.obj a with info := some i } }

/-- `x.upper = u` -/
def Heap.setUpper (h : Heap) (a : Addr) (u : Option Addr) : Heap := h.setInfo a { h.info a with upper := u }

def Heap.record (h : Heap) (e : Event) : Heap := { h with log := e :: h.log }

/-- `RValue::set_class` (value/rvalue.rs:818-821). -/
def Heap.setCls (h : Heap) (a c : Addr) : Heap := { h with obj := upd h.obj a { h.obj a with cls := c } }

/-- `RValue::pack` (value/rvalue.rs:788-795): a fresh address.  The extension `x`, if given, is a fresh box: it is
given the same number as the object that owns it. -/
def Heap.alloc (h : Heap) (o : Obj) : Heap × Addr :=
  ({ h with next := h.next + 1, obj := upd h.obj h.next o }, h.next)

/-- `ClassInfo::is_singleton` (value/class.rs:452-454). -/
def Heap.isSingleton (h : Heap) (a : Addr) : Bool := (h.ext (h.info a).ext).singletonFor.isSome

/-- `Module::real_module` (value/class.rs:112-120).  `unwrap` of a missing origin would panic; the invariant shows
that an included module has one. -/
def realModule (h : Heap) (m : Addr) : Addr :=
  if (h.info m).included then ((h.ext (h.info m).ext).origin).getD 0 else m

/-- `Module::dup` and `set_include` (value/class.rs:95-97, 127-130, 470-475; value/rvalue.rs:560-593): the copy shares
the extension, and the origin is written into that shared extension. -/
def generateIncludedFrom (h : Heap) (m origin : Addr) : Heap × Addr :=
  let (h, a) := h.alloc { cls := (h.obj m).cls, info := some { h.info m with included := true } }
  ({ h with ext := upd h.ext (h.info m).ext { h.ext (h.info m).ext with origin := some origin } }, a)

/-- `Module::generate_included` (value/class.rs:122-125). -/
def generateIncluded (h : Heap) (m : Addr) : Heap × Addr := generateIncludedFrom h m (realModule h m)

/-- The loop of `ClassInfo::upper` (value/class.rs:373-381). -/
def upperLoop (h : Heap) : Nat → Option Addr → Option (Option Addr)
  | 0, _ => none
  | _ + 1, none => some none
  | n + 1, some m => if !(h.info m).prepended then some (some m) else upperLoop h n (h.info m).upper

/-- `ClassInfo::upper` (value/class.rs:370-381). -/
def upper (n : Nat) (h : Heap) (c : Addr) : Option (Option Addr) := upperLoop h n (h.info c).upper

/-- The loop of `ClassInfo::superclass` (value/class.rs:386-394). -/
def superLoop (h : Heap) : Nat → Option Addr → Option (Option Addr)
  | 0, _ => none
  | _ + 1, none => some none
  | n + 1, some m => if !(h.info m).included then some (some m) else superLoop h n (h.info m).upper

/-- `ClassInfo::superclass` (value/class.rs:383-394). -/
def superclass (n : Nat) (h : Heap) (c : Addr) : Option (Option Addr) := superLoop h n (h.info c).upper

/-- The loop of `append_include` and `append_prepend` (value/class.rs:488-496, 509-517). -/
def includeLoop : Nat → Heap → Addr → Addr → Option (Heap × Addr)
  | 0, _, _, _ => none
  | n + 1, h, module, imodule =>
    match upper n h module with
    | none => none
    | some none => some (h, imodule)
    | some (some module') =>
      let (h, i) := generateIncluded h module'
      includeLoop n (h.setUpper imodule (some i)) module' i

/-- `append_include` (value/class.rs:479-498) without the version count, which `exec` does. -/
def appendInclude (n : Nat) (h : Heap) (c m : Addr) : Option Heap :=
  let superclass := (h.info c).upper
  let (h, imodule) := generateIncluded h m
  let h := h.setUpper c (some imodule)
  match includeLoop n h m imodule with
  | none => none
  | some (h, imodule) => some ((h.setUpper imodule superclass).record (.incl c m))

/-- `append_prepend` (value/class.rs:500-528); `base` is `self`. -/
def appendPrepend (n : Nat) (h : Heap) (c m : Addr) : Option Heap :=
  let superclass := (h.info c).upper
  let (h, imodule) := generateIncluded h m
  let h := h.setUpper c (some imodule)
  match includeLoop n h m imodule with
  | none => none
  | some (h, imodule) =>
    if !(h.info c).prepended then
      let (h, dummy) := generateIncludedFrom h c c
      let h := h.setUpper dummy superclass
      let h := h.setUpper imodule (some dummy)
      some ((h.setInfo c { h.info c with prepended := true }).record (.prep c m))
    else some ((h.setUpper imodule superclass).record (.prep c m))

/-- `ClassExt::add_method` (value/class.rs:720-723) without the version count, which `exec` does. -/
def addMethod (h : Heap) (c : Addr) (name : Id) (f : Fn) : Heap :=
  let e := h.ext (h.info c).ext
  { h with ext := upd h.ext (h.info c).ext { e with methods := fun x => if x = name then some f else e.methods x }
           log := .defm c name f :: h.log }

/-- `ClassInfo::set_const` (value/class.rs:571-595) without naming the value. -/
def setConst (h : Heap) (c : Addr) (name : Id) (v : Val) : Heap :=
  let e := h.ext (h.info c).ext
  { h with ext := upd h.ext (h.info c).ext { e with consts := fun x => if x = name then some v else e.consts x }
           log := .setc c name v :: h.log }

/-- `RValue::new_class` of a fresh `ClassInfo` (value/class.rs:336-366, value/rvalue.rs:675-689). -/
def newInfo (h : Heap) (cls : Addr) (isModule : Bool) (sup : Option Addr) (target : Option Addr) : Heap × Addr :=
  let a := h.next
  ({ h with next := a + 1
            obj := upd h.obj a { cls := cls, info := some { upper := sup, isModule := isModule, ext := a } }
            ext := upd h.ext a { singletonFor := target }
            log := (if isModule then .mod a else .cls a sup) :: h.log }, a)

/-- The addresses of the bootstrap classes (builtin.rs:55-71). -/
def basicObject : Addr := 0
def objectC : Addr := 1
def moduleC : Addr := 2
def classC : Addr := 3

/-- `Value::get_singleton_class` (value/value.rs:1190-1220). -/
def getSingleton : Nat → Heap → Addr → Option (Heap × Addr)
  | 0, _, _ => none
  | n + 1, h, a =>
    let c := (h.obj a).cls
    if h.isSingleton c then some (h, c)
    else
      match (h.obj a).info with
      | some i =>
        if i.isModule then
          let (h, s) := newInfo h classC false (some c) (some a)
          some (h.setCls a s, s)
        else
          match superclass n h a with
          | none => none
          | some none =>
            let (h, s) := newInfo h classC false none (some a)
            some (h.setCls a s, s)
          | some (some sup) =>
            match getSingleton n h sup with
            | none => none
            | some (h, ss) =>
              let (h, s) := newInfo h classC false (some ss) (some a)
              some (h.setCls a s, s)
      | none =>
        let (h, s) := newInfo h classC false (some c) (some a)
        some (h.setCls a s, s)

/-- `Module::class_under` (value/class.rs:278-293): a class gets its singleton class at once. -/
def newClass (n : Nat) (h : Heap) (sup : Addr) : Option (Heap × Addr) :=
  let (h, c) := newInfo h classC false (some sup) none
  match getSingleton n h c with
  | none => none
  | some (h, _) => some (h, c)

/-- `Module::module` (value/class.rs:305-307). -/
def newModule (h : Heap) : Heap × Addr := newInfo h moduleC true none none

/-- `Value::ordinary_object` (builtin/class.rs:40-46). -/
def newObject (h : Heap) (c : Addr) : Heap × Addr := h.alloc { cls := c, info := none }

/-- `EssentialClass::new` (builtin.rs:52-76): BasicObject, Object, Module, Class, and the singleton class of
BasicObject.  The bootstrap classes are made with a dummy class that is set afterwards; the heap below is the
result. -/
def boot : Heap :=
  { next := 5
    obj := fun a =>
      match a with
      | 0 => { cls := 4, info := some { upper := none, ext := 0 } }
      | 1 => { cls := 3, info := some { upper := some 0, ext := 1 } }
      | 2 => { cls := 3, info := some { upper := some 1, ext := 2 } }
      | 3 => { cls := 3, info := some { upper := some 2, ext := 3 } }
      | 4 => { cls := 3, info := some { upper := some 3, ext := 4 } }
      | _ => {}
    ext := fun a => if a = 4 then { singletonFor := some 0 } else {}
    log := [.cls 4 (some 3), .cls 3 (some 2), .cls 2 (some 1), .cls 1 (some 0), .cls 0 none] }

/-! ## Looking up -/

/-- The loop of `Module::search_method` (value/class.rs:185-212); `start` is `self`. -/
def searchLoop (h : Heap) (start : Addr) (name : Id) : Nat → Addr → Bool → Option (Option (Fn × Addr))
  | 0, _, _ => none
  | n + 1, c, flag =>
    match (h.ext (h.info c).ext).methods name with
    | some f => some (some (f, c))
    | none =>
      match upper n h c with
      | none => none
      | some (some u) => searchLoop h start name n u flag
      | some none => if flag then searchLoop h start name n (h.obj start).cls false else some none

/-- `Module::search_method` (value/class.rs:185-212). -/
def searchMethod (n : Nat) (h : Heap) (c : Addr) (name : Id) : Option (Option (Fn × Addr)) :=
  searchLoop h c name n c (h.isSingleton c)

/-- `Module::include_module` (value/class.rs:133-147). -/
def includeModule (h : Heap) (target : Addr) : Nat → Addr → Option Bool
  | 0, _ => none
  | n + 1, m =>
    if realModule h m = target then some true
    else
      match upper n h m with
      | none => none
      | some (some u) => includeModule h target n u
      | some none => some false

/-- The loop of `Globals::kind_of` (globals.rs:193-202). -/
def kindOf (h : Heap) (target : Addr) : Nat → Addr → Option Bool
  | 0, _ => none
  | n + 1, m =>
    if m = target then some true
    else
      match upper n h m with
      | none => none
      | some (some u) => kindOf h target n u
      | some none => some false

/-- `Module#ancestors` (builtin/module.rs:414-428). -/
def ancestors (h : Heap) : Nat → Addr → Option (List Addr)
  | 0, _ => none
  | n + 1, m =>
    match upper n h m with
    | none => none
    | some none => some [realModule h m]
    | some (some u) => (ancestors h n u).map (realModule h m :: ·)

/-- `RValue::real_class` (value/rvalue.rs:805-815).  `unwrap` panics on a singleton class without superclass: the
answer `some none`. -/
def realClassLoop (h : Heap) : Nat → Addr → Option (Option Addr)
  | 0, _ => none
  | n + 1, c =>
    if h.isSingleton c then
      match superclass n h c with
      | none => none
      | some none => some none
      | some (some s) => realClassLoop h n s
    else some (some c)

/-- `Globals::get_class` of an object that is not packed (globals.rs:151-153). -/
def getClass (n : Nat) (h : Heap) (x : Addr) : Option (Option Addr) := realClassLoop h n (h.obj x).cls

/-- `Kernel#is_a?` (builtin/kernel.rs:191-194, globals.rs:191-203). -/
def isA (n : Nat) (h : Heap) (x m : Addr) : Option Bool :=
  match getClass n h x with
  | some (some c) => kindOf h m n c
  | _ => none

/-- `Module#===` (builtin/module.rs:81-86). -/
def teqModule (n : Nat) (h : Heap) (m x : Addr) : Option Bool :=
  match getClass n h x with
  | some (some c) => includeModule h m n c
  | _ => none

/-- The method that `super` calls inside a method called `name`, with a receiver whose class is `c`
(`vm_super`, vm/executor/opt_core.rs:748-768): only the class of the receiver and the name matter. -/
def superMethod (n : Nat) (h : Heap) (c : Addr) (name : Id) : Option (Option (Fn × Addr)) :=
  match superclass n h c with
  | none => none
  | some none => some none
  | some (some s) => searchMethod n h s name

end Verif.Class
