/-!
# Model of closures and virtual pointers

* `src/closure/arc.rs`, `src/closure/boxed.rs`, `src/closure/borrowed.rs`: `ArcDynFnN`,
  `BoxDynFnMutN`, `RefDynFnMutN`;
* `src/dyn_traits/_mod.rs` and the code generated by `#[derive_ReprC(dyn)]`
  (`src/proc_macro/derives/dyn_trait/*.rs`): `VirtualPtr<dyn Trait>`.

Memory is a list of objects.  A function pointer is a value naming one of the functions that the code
instantiates for a concrete type; jumping to it has the effect of that function's body, and is a fault
(undefined behaviour) when the object is gone, is of another type, was allocated in another way, or is
accessed mutably while another access is going on.

Calls are split into `enter` and `leave`, so that calls may nest and overlap, as they do with
re-entrant closures and with several threads.  A closure that panics aborts the process (it would
unwind out of an `extern "C"` function); that is left out here.  What the Rust compiler rejects
(moving or dropping a value that is borrowed, using a method that does not exist) has the outcome
`illTyped` and no effect; `Var.lt` is the compile-time information needed to decide that.
-/
namespace Verif.Dyn

/-- How an object is stored: in a `Box`, an `Rc`, an `Arc`, a local variable, or by foreign code. The
arguments of `src/closure/arc.rs` line 112, `/repo/src/closure/boxed.rs` line 109, `/repo/src/closure/borrowed.rs` line 79, `/repo/src/proc_macro/derives/dyn_trait/coercions.rs`
lines 12-17. -/
inductive Own
  | box | rc | arc | stack | foreign
deriving DecidableEq, Repr

/-- An object of the type number `ty`. `cnt` is its reference count (1 when it is not counted), and 0 once
it is destroyed. Models the allocator and `Box`/`Rc`/`Arc` of std, used by the files above. -/
structure Obj (σ : Type) where
  ty : Nat
  own : Own
  st : σ
  cnt : Nat
deriving DecidableEq, Repr

/-- All objects ever made (std), see `Obj`. -/
abbrev Heap (σ : Type) := List (Obj σ)

/-- Undefined behaviour in the bodies of the functions listed at `FnPtr`. -/
inductive Fault
  | useAfterFree | wrongType | wrongStorage | notThisFunction | aliasing
deriving DecidableEq, Repr

/-- What the types of the program do: `call ty name state args` runs the method `name` (for closures:
their body, under the name `""`), `clone` is their `Clone` impl. Models user code: the `F` of
`src/closure/arc.rs` line 112 and `/repo/src/closure/boxed.rs` line 109, and the `impl_Trait` of `/repo/src/proc_macro/derives/dyn_trait/_mod.rs` lines 282-284. -/
structure Sem (σ V : Type) where
  call : Nat → String → σ → List V → σ × V
  clone : Nat → σ → σ

/-- The functions that function pointers can designate. The citations are at its cases. -/
inductive FnPtr
  /-- `src/closure/arc.rs` lines 148-164, 124-133, 134-147 -/
  | arcCall (t : Nat) | arcRelease (t : Nat) | arcRetain (t : Nat)
  /-- `src/closure/boxed.rs` lines 121-132, 118-120 -/
  | boxCall (t : Nat) | boxFree (t : Nat)
  /-- `src/closure/borrowed.rs` lines 89-104 -/
  | refCall (t : Nat)
  /-- `src/proc_macro/derives/dyn_trait/coercions.rs` lines 94-110, 121-136, 141-149 -/
  | dropBox (t : Nat) | dropRc (atomic : Bool) (t : Nat) | noOp
  /-- `/repo/src/proc_macro/derives/dyn_trait/coercions.rs` lines 163-182, 193-213, 219-229 -/
  | cloneBox (t : Nat) | incRc (atomic : Bool) (t : Nat) | copy
  /-- `src/proc_macro/derives/dyn_trait/vtable_entry.rs` lines 195-214 -/
  | method (t : Nat) (name : String)
  /-- Functions of foreign code. -/
  | foreignCall (t : Nat) | foreignRelease (t : Nat) | foreignRetain (t : Nat)
deriving DecidableEq, Repr

/-- `ArcDynFnN`, `src/closure/arc.rs` lines 26-61. -/
structure ArcFn where
  env : Nat
  call : FnPtr
  release : FnPtr
  retain : Option FnPtr
deriving DecidableEq, Repr

/-- `BoxDynFnMutN`, `src/closure/boxed.rs` lines 40-56. -/
structure BoxFn where
  env : Nat
  call : Option FnPtr
  free : Option FnPtr
deriving DecidableEq, Repr

/-- `RefDynFnMutN`, `src/closure/borrowed.rs` lines 27-39. -/
structure RefFn where
  env : Nat
  call : FnPtr
deriving DecidableEq, Repr

/-- `ArcDynFnN::new`, `src/closure/arc.rs` lines 110-166. -/
def ArcFn.new (t k : Nat) : ArcFn :=
  { env := k, release := .arcRelease t, retain := some (.arcRetain t), call := .arcCall t }

/-- `BoxDynFnMutN::new`, `src/closure/boxed.rs` lines 107-134. -/
def BoxFn.new (t k : Nat) : BoxFn :=
  { env := k, free := some (.boxFree t), call := some (.boxCall t) }

/-- `RefDynFnMutN::new`, `src/closure/borrowed.rs` lines 79-107. -/
def RefFn.new (t k : Nat) : RefFn := { env := k, call := .refCall t }

/-- A closure that foreign code made, with a null `retain` or not. The fields of `src/closure/arc.rs`
lines 41-60 as C code fills them. -/
def ArcFn.foreign (t k : Nat) (retain : Bool) : ArcFn :=
  { env := k, call := .foreignCall t, release := .foreignRelease t,
    retain := if retain then some (.foreignRetain t) else none }

/-- A closure that foreign code made, with a null `call` or `free` or not. The fields of
`src/closure/boxed.rs` lines 40-55 as C code fills them. -/
def BoxFn.foreign (t k : Nat) (call free : Bool) : BoxFn :=
  { env := k, call := if call then some (.foreignCall t) else none,
    free := if free then some (.foreignRelease t) else none }

/-! ## `#[derive_ReprC(dyn)]` -/

/-- A trait declaration, with one of the combinations of markers (`dyn Send + Sync + Trait`).
Each method has a name and a receiver, `&self` or `&mut self` (other receivers are rejected,
`/repo/src/proc_macro/derives/dyn_trait/vtable_entry.rs` lines 319-324; `Pin<&Self>` and `Pin<&mut Self>` are treated alike). -/
structure Decl where
  methods : List (String × Bool)
  clone : Bool
  send : Bool
  sync : Bool
deriving DecidableEq, Repr

/-- A method with the receiver `&mut self`: `src/proc_macro/derives/dyn_trait/_mod.rs` lines 195-207, 247. -/
def Decl.hasMut (d : Decl) : Bool := d.methods.any (·.2)
/-- A method with the receiver `&self`: `src/proc_macro/derives/dyn_trait/_mod.rs` lines 195-207, 247. -/
def Decl.hasRef (d : Decl) : Bool := d.methods.any (!·.2)

/-- The combinations of markers for which impls are generated, `/repo/src/proc_macro/derives/dyn_trait/_mod.rs` lines 251-266. -/
def Decl.generated (d : Decl) : Bool :=
  if d.sync && !d.send then false
  else if d.hasRef && d.send && !d.sync then false
  else true

/-- Whether `VirtualPtr<dyn Trait>`, with the markers of `d`, is `Send`: `/repo/src/dyn_traits/_mod.rs` lines 196-203, if `dyn Trait` is.
By the rules of Rust it is also if the trait has the supertrait `Send` (`superSend`), which the macro ignores:
`/repo/src/proc_macro/derives/dyn_trait/_mod.rs` lines 89-90. -/
def Decl.valueSend (d : Decl) (superSend : Bool) : Bool := d.send || superSend
/-- Whether it is `Sync`: `/repo/src/dyn_traits/_mod.rs` lines 205-212. -/
def Decl.valueSync (d : Decl) (superSync : Bool) : Bool := d.sync || superSync

/-- The sources of virtual pointers: `src/proc_macro/derives/dyn_trait/coercions.rs` lines 12-17. -/
inductive Coercible
  | box
  | rc (threadSafe : Bool)
  | ref (mt : Bool)
deriving DecidableEq, Repr

/-- `Coercible::is_eligible`, `/repo/src/proc_macro/derives/dyn_trait/coercions.rs` lines 20-39. -/
def Coercible.isEligible (d : Decl) : Coercible → Bool
  | .box => true
  | .rc threadSafe => !d.hasMut && (threadSafe == d.send && d.send == d.sync)
  | .ref true => !d.clone
  | .ref false => !d.hasMut && d.sync == d.send

/-- The generated vtable: `src/proc_macro/derives/dyn_trait/_mod.rs` lines 157-193. `retain`: absent
without `Clone`. -/
structure VTable where
  release : FnPtr
  retain : Option FnPtr
  methods : List (String × FnPtr)
deriving DecidableEq, Repr

/-- `Coercible::release_vptr`, `/repo/src/proc_macro/derives/dyn_trait/coercions.rs` lines 84-151. -/
def Coercible.release (t : Nat) : Coercible → FnPtr
  | .box => .dropBox t
  | .rc threadSafe => .dropRc threadSafe t
  | .ref _ => .noOp

/-- `Coercible::retain_vptr`, `/repo/src/proc_macro/derives/dyn_trait/coercions.rs` lines 153-232. -/
def Coercible.retain (t : Nat) : Coercible → Option FnPtr
  | .box => some (.cloneBox t)
  | .rc threadSafe => some (.incRc threadSafe t)
  | .ref true => none
  | .ref false => some .copy

/-- The vtable expression, `/repo/src/proc_macro/derives/dyn_trait/_mod.rs` lines 329-342. -/
def vtable (src : Coercible) (d : Decl) (t : Nat) : VTable where
  release := src.release t
  retain := if d.clone then src.retain t else none
  methods := d.methods.map fun m => (m.1, .method t m.1)

/-- `VirtualPtr`, `src/dyn_traits/_mod.rs` lines 116-155. -/
structure VPtr where
  ptr : Nat
  vtable : VTable
deriving DecidableEq, Repr

/-- `into_virtual_ptr`, `/repo/src/proc_macro/derives/dyn_trait/_mod.rs` lines 343-377; `into_raw`, `/repo/src/proc_macro/derives/dyn_trait/coercions.rs` lines 41-82. -/
def intoVirtualPtr (src : Coercible) (d : Decl) (t k : Nat) : VPtr := ⟨k, vtable src d t⟩

/-! ## How the generated code passes arguments

The method of `VirtualPtr` and the function in the vtable are generated separately; each refers to its
parameters by name. -/

/-- `each_arg_name`, `/repo/src/proc_macro/derives/dyn_trait/vtable_entry.rs` lines 342-356: `__arg1`, `__arg2`, … -/
def argNames (n : Nat) : List String := (List.range n).map fun i => "__arg" ++ toString (i + 1)

/-- The value of a parameter, by its name. Language semantics of the names of `/repo/src/proc_macro/derives/dyn_trait/vtable_entry.rs` lines 76,
208. -/
def lookupArg {V : Type} (names : List String) (args : List V) (x : String) : Option V :=
  ((names.zip args).find? (·.1 == x)).map (·.2)

/-- `VTableEntry::virtual_forwarding`, `/repo/src/proc_macro/derives/dyn_trait/vtable_entry.rs` lines 52-82: the parameters of the method are
renamed, and each name is passed on to the function pointer. -/
def forwardArgs {V : Type} (args : List V) : Option (List V) :=
  (argNames args.length).mapM (lookupArg (argNames args.length) args)

/-- The function in the vtable, `/repo/src/proc_macro/derives/dyn_trait/vtable_entry.rs` lines 195-214: each of its parameters is passed on to
the method of the impl. -/
def thunkArgs {V : Type} (args : List V) : Option (List V) :=
  (argNames args.length).mapM (lookupArg (argNames args.length) args)

/-! ## Programs -/

/-- Run-time values. `box`, `rc`, `arc`: the Rust smart pointers to an object of type `t`; `stack`: a
local variable holding one. The Rust pointers are std's; the others are `src/closure/arc.rs` lines 26-61,
`/repo/src/closure/boxed.rs` lines 40-55, `/repo/src/closure/borrowed.rs` lines 27-39, `src/dyn_traits/_mod.rs` lines 146-155. -/
inductive Val
  | box (k t : Nat) | rc (k t : Nat) | arc (k t : Nat) | stack (k t : Nat)
  | arcFn (f : ArcFn) | boxFn (f : BoxFn) | refFn (f : RefFn)
  | vptr (p : VPtr) (d : Decl)
deriving DecidableEq, Repr

/-- The object a value points to: the `env_ptr` or `ptr` field of the types cited at `Val`. -/
def Val.obj : Val → Nat
  | .box k _ | .rc k _ | .arc k _ | .stack k _ => k
  | .arcFn f => f.env
  | .boxFn f => f.env
  | .refFn f => f.env
  | .vptr p _ => p.ptr

/-- A variable. `lt` is known at compile time only: `some ex` when the value's lifetime is that of a
borrow (exclusive if `ex`) of a local variable. The lifetime parameters are those of
`src/closure/borrowed.rs` line 38 and of `dyn 'lt + Trait`, `dyn_trait/_mod.rs` lines 272-274. -/
structure Var where
  val : Val
  lt : Option Bool
deriving DecidableEq, Repr

/-- A call which has not returned yet: made through the variable `var`, it runs the code `name` of type
`ty` on the object `obj`, with exclusive access if `mt`. A call of `src/closure/arc.rs` lines 150-162,
`/repo/src/closure/boxed.rs` lines 121-132, `/repo/src/closure/borrowed.rs` lines 90-102, or `/repo/src/proc_macro/derives/dyn_trait/vtable_entry.rs` lines 195-214 in progress. -/
structure Act (V : Type) where
  var : Nat
  obj : Nat
  ty : Nat
  name : String
  args : List V
  mt : Bool
deriving DecidableEq, Repr

/-- Not in the code: memory, variables and unfinished calls of a program. -/
structure State (σ V : Type) where
  heap : Heap σ
  vars : List (Option Var)
  acts : List (Option (Act V))
deriving DecidableEq, Repr

/-- The functions of `src/closure/arc.rs` lines 96-227, `/repo/src/closure/boxed.rs` lines 93-171, `/repo/src/closure/borrowed.rs` lines
63-129, `src/dyn_traits/_mod.rs` lines 82-114, 157-168, and std's, as a program calls them. -/
inductive Op (σ V : Type)
  | newBox (t : Nat) (st : σ) | newRc (t : Nat) (st : σ) | newArc (t : Nat) (st : σ) | newStack (t : Nat) (st : σ)
  /-- A closure made by foreign code, with or without the optional functions. -/
  | foreignArc (t : Nat) (st : σ) (retain : Bool)
  | foreignBox (t : Nat) (st : σ) (call free : Bool)
  /-- `ArcDynFn::from(arc)`, `BoxDynFnMut::from(boxed)`, `RefDynFnMut::new(&mut local)` -/
  | toArcFn (i : Nat) | toBoxFn (i : Nat) | toRefFn (i : Nat)
  /-- `VirtualPtr::<dyn Trait>::from(x)` for `x` a `Box`, `Rc` or `Arc` -/
  | toVptr (i : Nat) (d : Decl)
  /-- `VirtualPtr::<dyn Trait>::from(&local)`, `…from(&mut local)` -/
  | refVptr (i : Nat) (d : Decl) (mt : Bool)
  | clone (i : Nat)
  /-- The call `x.name(args)` begins.  `mt`: the receiver, for calls on a Rust pointer. -/
  | enter (i : Nat) (name : String) (args : List V) (mt : Bool)
  /-- The call number `c` runs and returns. -/
  | leave (c : Nat)
  | drop (i : Nat)
deriving DecidableEq, Repr

/-- What the program observes of an operation. -/
inductive Out (σ V : Type)
  | unit
  | returned (v : V)
  /-- The variable is gone, and with it (`some`) the object in its last state. -/
  | dropped (st : Option σ)
  | panicked
  | illTyped
deriving DecidableEq, Repr

section
variable {σ V : Type}

/-- A program before its first operation (not in the code). -/
def State.init : State σ V := ⟨[], [], []⟩
/-- The variable number `i`, unless it was moved or dropped (not in the code). -/
def State.var (s : State σ V) (i : Nat) : Option Var := (s.vars[i]?).join

/-- The borrow checker: may the variable `i` be used now, exclusively (`mt`) or not?. Language semantics,
for `&self`/`&mut self` of `src/closure/arc.rs` line 218, `/repo/src/closure/boxed.rs` line 162, `/repo/src/closure/borrowed.rs` line 120 and
the lifetimes cited at `Var`. -/
def State.usable (s : State σ V) (i : Nat) (v : Var) (mt : Bool) : Bool :=
  s.acts.all (fun
    | some c => !(c.var == i && (mt || c.mt))
    | none => true) &&
  (v.lt.isSome || s.vars.all fun
    | some ⟨w, some ex⟩ => !(w.obj == v.val.obj && (mt || ex))
    | _ => true)

/-- No call has access to the object (exclusive access, unless `mt`). The aliasing rule of the language
for the references made at `src/closure/arc.rs` line 161, `/repo/src/closure/boxed.rs` line 129, `/repo/src/closure/borrowed.rs` line 100,
`/repo/src/proc_macro/derives/dyn_trait/vtable_entry.rs` line 206. -/
def State.quiet (s : State σ V) (k : Nat) (mt : Bool) : Bool :=
  s.acts.all fun
    | some c => !(c.obj == k && (mt || c.mt))
    | none => true

/-- A live object of the given type. What `cast::<F>()` relies on: `src/closure/arc.rs` lines 130, 142,
160. -/
def State.object (s : State σ V) (k t : Nat) : Except Fault (Obj σ) :=
  match s.heap[k]? with
  | none => .error .useAfterFree
  | some o => if o.cnt = 0 then .error .useAfterFree else if o.ty = t then .ok o else .error .wrongType

/-- One more reference. (std) `/repo/src/proc_macro/derives/dyn_trait/coercions.rs` lines 199-202, `src/closure/arc.rs` lines 140-144. -/
def State.incr (s : State σ V) (own : Own) (k t : Nat) : Except Fault (Heap σ) := do
  let o ← s.object k t
  if o.own = own then .ok (s.heap.set k { o with cnt := o.cnt + 1 }) else .error .wrongStorage

/-- One reference less; the object is destroyed with the last one. (std) `/repo/src/proc_macro/derives/dyn_trait/coercions.rs` lines 101-106,
127-130, `src/closure/arc.rs` line 130, `/repo/src/closure/boxed.rs` line 119. -/
def State.decr (s : State σ V) (own : Own) (k t : Nat) : Except Fault (Heap σ × Option σ) := do
  let o ← s.object k t
  if o.own = own then
    if o.cnt = 1 then
      if s.quiet k true then .ok (s.heap.set k { o with cnt := 0 }, some o.st) else .error .aliasing
    else .ok (s.heap.set k { o with cnt := o.cnt - 1 }, none)
  else .error .wrongStorage

/-- A jump to a release function. `src/closure/arc.rs` lines 126-131, `/repo/src/closure/boxed.rs` lines 118-120,
`/repo/src/proc_macro/derives/dyn_trait/coercions.rs` lines 96-107, 122-131, 141-144. -/
def State.release (s : State σ V) (f : FnPtr) (k : Nat) : Except Fault (Heap σ × Option σ) :=
  match f with
  -- `drop(Arc::<F>::from_raw(env))`; `Arc::decrement_strong_count`, `Rc::decrement_strong_count`
  | .arcRelease t => s.decr .arc k t
  | .dropRc true t => s.decr .arc k t
  | .dropRc false t => s.decr .rc k t
  -- `drop(Box::<F>::from_raw(env))`
  | .boxFree t => s.decr .box k t
  | .dropBox t => s.decr .box k t
  | .noOp => .ok (s.heap, none)
  | .foreignRelease t => s.decr .foreign k t
  | _ => .error .notThisFunction

/-- A jump to a retain function; the new heap and the pointer returned. `src/closure/arc.rs` lines
136-145, `/repo/src/proc_macro/derives/dyn_trait/coercions.rs` lines 165-179, 194-208, 220-225. -/
def State.retain (S : Sem σ V) (s : State σ V) (f : FnPtr) (k : Nat) : Except Fault (Heap σ × Nat) :=
  match f with
  -- `mem::forget(Arc::clone(&ManuallyDrop::new(Arc::from_raw(env))))`
  | .arcRetain t => return (← s.incr .arc k t, k)
  | .incRc true t => return (← s.incr .arc k t, k)
  | .incRc false t => return (← s.incr .rc k t, k)
  | .foreignRetain t => return (← s.incr .foreign k t, k)
  -- `Box::into_raw(Box::new(T::clone(&*ptr)))`
  | .cloneBox t => do
      let o ← s.object k t
      if s.quiet k false then .ok (s.heap ++ [⟨t, .box, S.clone t o.st, 1⟩], s.heap.length) else .error .aliasing
  | .copy => .ok (s.heap, k)
  | _ => .error .notThisFunction

/-- The code a call function runs: a type and the name of its method. `src/closure/arc.rs` line 162,
`/repo/src/closure/boxed.rs` line 130, `/repo/src/closure/borrowed.rs` line 101, `/repo/src/proc_macro/derives/dyn_trait/vtable_entry.rs` line 205. -/
def FnPtr.code : FnPtr → Except Fault (Nat × String)
  | .arcCall t | .boxCall t | .refCall t | .foreignCall t => .ok (t, "")
  | .method t name => .ok (t, name)
  | _ => .error .notThisFunction

/-- A jump to a call function: `env_ptr.cast::<F>().as_ref()` or `.as_mut()`, then the body.
`src/closure/arc.rs` lines 160-162, `/repo/src/closure/boxed.rs` lines 128-130, `/repo/src/closure/borrowed.rs` lines 99-101,
`/repo/src/proc_macro/derives/dyn_trait/vtable_entry.rs` lines 205-206. -/
def State.jump (s : State σ V) (f : FnPtr) (i k : Nat) (args : List V) (mt : Bool) : Except Fault (State σ V) := do
  let (t, name) ← f.code
  let _ ← s.object k t
  if s.quiet k mt then .ok { s with acts := s.acts ++ [some ⟨i, k, t, name, args, mt⟩] } else .error .aliasing

/-- What a method call expression does. The citations are at `Val.callee`. -/
inductive Callee
  | jump (f : FnPtr) (env : Nat) (mt : Bool)
  | panic
  | illTyped

/-- Which function a method call jumps to. -/
def Val.callee (v : Val) (name : String) (mt : Bool) : Callee :=
  match v with
  -- Rust's own method calls
  | .box k t => .jump (.method t name) k mt
  | .stack k t => .jump (.method t name) k mt
  | .rc k t => if mt then .illTyped else .jump (.method t name) k false
  | .arc k t => if mt then .illTyped else .jump (.method t name) k false
  -- `ArcDynFnN::call(&self, …)`, `src/closure/arc.rs` lines 208-227
  | .arcFn f => if name = "" then .jump f.call f.env false else .illTyped
  -- `BoxDynFnMutN::call(&mut self, …)`, `src/closure/boxed.rs` lines 152-171
  | .boxFn f => if name = "" then (match f.call with | some c => .jump c f.env true | none => .panic) else .illTyped
  -- `RefDynFnMutN::call(&mut self, …)`, `src/closure/borrowed.rs` lines 119-128
  | .refFn f => if name = "" then .jump f.call f.env true else .illTyped
  -- `VTableEntry::virtual_forwarding`, `/repo/src/proc_macro/derives/dyn_trait/vtable_entry.rs` lines 33-85: `(self.__vtable().name)(self.__ptr(), …)`
  | .vptr p d =>
      match d.methods.find? (·.1 == name), p.vtable.methods.find? (·.1 == name) with
      | some (_, mt), some (_, f) => .jump f p.ptr mt
      | _, _ => .illTyped

/-- The arguments that reach the callee. `none` stands for code that does not compile. See `forwardArgs`,
`thunkArgs`: `/repo/src/proc_macro/derives/dyn_trait/vtable_entry.rs` lines 76, 208. -/
def Val.passed (v : Val) (args : List V) : Option (List V) :=
  match v with
  | .vptr _ _ => (forwardArgs args).bind thunkArgs
  -- the closures' `call` and the functions they jump to are written out in a macro,
  -- `src/closure/arc.rs` lines 148-164, 208-227, with the parameters `A1`, `A2`, … in order
  | _ => some args

/-- A `let` of the program (not in the code). -/
def State.push (s : State σ V) (h : Heap σ) (v : Val) (lt : Option Bool) : State σ V :=
  { s with heap := h, vars := s.vars ++ [some ⟨v, lt⟩] }

/-- An assignment or move of the program (not in the code). -/
def State.set (s : State σ V) (h : Heap σ) (i : Nat) (v : Option Var) : State σ V :=
  { s with heap := h, vars := s.vars.set i v }

/-- `Clone`. The citations are at its cases. -/
def State.clone (S : Sem σ V) (s : State σ V) (i : Nat) (v : Var) : Except Fault (State σ V × Out σ V) :=
  if !s.usable i v false then .ok (s, .illTyped)
  else match v.val with
  | .rc k t => do .ok (s.push (← s.incr .rc k t) v.val none, .unit)
  | .arc k t => do .ok (s.push (← s.incr .arc k t) v.val none, .unit)
  -- `Clone for ArcDynFnN`, `src/closure/arc.rs` lines 185-206: `expect`, `retain(env)`, `Self { ..*self }`
  | .arcFn f =>
      match f.retain with
      | none => .ok (s, .panicked)
      | some r => do
          let (h, _) ← s.retain S r f.env
          .ok (s.push h (.arcFn f) none, .unit)
  -- `dyn_clone`, `/repo/src/proc_macro/derives/dyn_trait/_mod.rs` lines 397-416
  | .vptr p d =>
      match p.vtable.retain with
      | none => .ok (s, .illTyped)
      | some r => do
          let (h, k) ← s.retain S r p.ptr
          .ok (s.push h (.vptr ⟨k, p.vtable⟩ d) v.lt, .unit)
  | _ => .ok (s, .illTyped)

/-- `Drop`. The citations are at its cases. -/
def State.drop (s : State σ V) (i : Nat) (v : Var) : Except Fault (State σ V × Out σ V) :=
  if !s.usable i v true then .ok (s, .illTyped)
  else
    let fin (r : Except Fault (Heap σ × Option σ)) : Except Fault (State σ V × Out σ V) := do
      let (h, x) ← r
      .ok (s.set h i none, .dropped x)
    match v.val with
    | .box k t => fin (s.decr .box k t)
    | .rc k t => fin (s.decr .rc k t)
    | .arc k t => fin (s.decr .arc k t)
    | .stack k t => fin (s.decr .stack k t)
    -- `src/closure/arc.rs` lines 169-183
    | .arcFn f => fin (s.release f.release f.env)
    -- `src/closure/boxed.rs` lines 137-150: `self.free.expect("non-NULL `.free`")(self.env_ptr)`
    | .boxFn f =>
        match f.free with
        | none => .ok (s.set s.heap i none, .panicked)
        | some g => fin (s.release g f.env)
    | .refFn _ => .ok (s.set s.heap i none, .dropped none)
    -- `Drop for VirtualPtr`, `src/dyn_traits/_mod.rs` lines 157-168; `drop_ptr`, `dyn_trait/_mod.rs` lines 387-394
    | .vptr p _ => fin (s.release p.vtable.release p.ptr)

/-- One operation. The conversions are `src/closure/arc.rs` lines 96-100, `/repo/src/closure/boxed.rs` lines 93-97,
`/repo/src/closure/borrowed.rs` lines 63-67, `src/dyn_traits/_mod.rs` lines 82-99. -/
def step (S : Sem σ V) (s : State σ V) : Op σ V → Except Fault (State σ V × Out σ V)
  | .newBox t st => .ok (s.push (s.heap ++ [⟨t, .box, st, 1⟩]) (.box s.heap.length t) none, .unit)
  | .newRc t st => .ok (s.push (s.heap ++ [⟨t, .rc, st, 1⟩]) (.rc s.heap.length t) none, .unit)
  | .newArc t st => .ok (s.push (s.heap ++ [⟨t, .arc, st, 1⟩]) (.arc s.heap.length t) none, .unit)
  | .newStack t st => .ok (s.push (s.heap ++ [⟨t, .stack, st, 1⟩]) (.stack s.heap.length t) none, .unit)
  | .foreignArc t st retain =>
      .ok (s.push (s.heap ++ [⟨t, .foreign, st, 1⟩]) (.arcFn (ArcFn.foreign t s.heap.length retain)) none, .unit)
  | .foreignBox t st call free =>
      .ok (s.push (s.heap ++ [⟨t, .foreign, st, 1⟩]) (.boxFn (BoxFn.foreign t s.heap.length call free)) none, .unit)
  | .toArcFn i =>
      match s.var i with
      | some v =>
        if !s.usable i v true then .ok (s, .illTyped)
        else match v.val with
        | .arc k t => .ok (s.set s.heap i (some ⟨.arcFn (ArcFn.new t k), none⟩), .unit)
        | _ => .ok (s, .illTyped)
      | none => .ok (s, .illTyped)
  | .toBoxFn i =>
      match s.var i with
      | some v =>
        if !s.usable i v true then .ok (s, .illTyped)
        else match v.val with
        | .box k t => .ok (s.set s.heap i (some ⟨.boxFn (BoxFn.new t k), none⟩), .unit)
        | _ => .ok (s, .illTyped)
      | none => .ok (s, .illTyped)
  | .toRefFn i =>
      match s.var i with
      | some v =>
        if !s.usable i v true then .ok (s, .illTyped)
        else match v.val with
        | .stack k t => .ok (s.push s.heap (.refFn (RefFn.new t k)) (some true), .unit)
        | _ => .ok (s, .illTyped)
      | none => .ok (s, .illTyped)
  | .toVptr i d =>
      match s.var i with
      | some v =>
        if !s.usable i v true then .ok (s, .illTyped)
        else
          let go (src : Coercible) (k t : Nat) : Except Fault (State σ V × Out σ V) :=
            if d.generated && src.isEligible d then
              .ok (s.set s.heap i (some ⟨.vptr (intoVirtualPtr src d t k) d, none⟩), .unit)
            else .ok (s, .illTyped)
          match v.val with
          | .box k t => go .box k t
          | .rc k t => go (.rc false) k t
          | .arc k t => go (.rc true) k t
          | _ => .ok (s, .illTyped)
      | none => .ok (s, .illTyped)
  | .refVptr i d mt =>
      match s.var i with
      | some v =>
        if !s.usable i v mt then .ok (s, .illTyped)
        else match v.val with
        | .stack k t =>
            if d.generated && (Coercible.ref mt).isEligible d then
              .ok (s.push s.heap (.vptr (intoVirtualPtr (.ref mt) d t k) d) (some mt), .unit)
            else .ok (s, .illTyped)
        | _ => .ok (s, .illTyped)
      | none => .ok (s, .illTyped)
  | .clone i =>
      match s.var i with
      | some v => s.clone S i v
      | none => .ok (s, .illTyped)
  | .enter i name args mt =>
      match s.var i with
      | some v =>
        match v.val.callee name mt with
        | .illTyped => .ok (s, .illTyped)
        | .panic => if s.usable i v true then .ok (s, .panicked) else .ok (s, .illTyped)
        | .jump f k mt =>
            match v.val.passed args with
            | none => .ok (s, .illTyped)
            | some args =>
              if s.usable i v mt then do .ok (← s.jump f i k args mt, .unit) else .ok (s, .illTyped)
      | none => .ok (s, .illTyped)
  | .leave c =>
      match (s.acts[c]?).join with
      | some a => do
          let o ← s.object a.obj a.ty
          let (st, v) := S.call a.ty a.name o.st a.args
          .ok ({ s with heap := s.heap.set a.obj { o with st := st }, acts := s.acts.set c none }, .returned v)
      | none => .ok (s, .illTyped)
  | .drop i =>
      match s.var i with
      | some v => s.drop i v
      | none => .ok (s, .illTyped)

/-- Not in the code: a program, or any interleaving of the calls of its threads. -/
def run (S : Sem σ V) (s : State σ V) : List (Op σ V) → Except Fault (State σ V × List (Out σ V))
  | [] => .ok (s, [])
  | op :: ops => do
      let (s1, o) ← step S s op
      let (s2, os) ← run S s1 ops
      .ok (s2, o :: os)
end
end Verif.Dyn
