/-!
# Boxes of opaque values, and owned pointers

Histories of Rust boxes, their conversions to boxes of `Opaque<T>` (src/layout/impls.rs 1067-1113) and to
`repr_c::Box` (src/boxed.rs 8-64), and pointers that own (`NonNullOwned`, src/ptr.rs 32-61, 107-114, 173-213).

Not modelled: `NonNullOwned::copy` other than within `drop_in_place_and_dealloc`, `NonNullRef` and `NonNullMut`,
which own nothing. A pointer to a value without a size identifies its value here; in the code such pointers may be
equal.
-/
namespace Verif.OpaqueBox

/-- A sized type: one with a size and an alignment, or `Opaque<T>`, src/layout/impls.rs 1067-1072. -/
inductive Ty
  | base (size align : Nat)
  | opaque (t : Ty)
  deriving DecidableEq, Repr

/-- `Layout::new::<T>()`, src/ptr.rs 187. `Opaque<T>` is `repr(transparent)`, src/layout/impls.rs 1069. -/
def Ty.layout : Ty → Nat × Nat
  | .base s a => (s, a)
  | .opaque t => t.layout

/-- The value whose drop is run when one of type `T` is dropped: a field of an `Opaque<T>` is dropped with it.
src/layout/impls.rs 1070-1072. -/
def Ty.core : Ty → Ty
  | .base s a => .base s a
  | .opaque t => t.core

/-- `rust::Box<T>`, `repr_c::Box<T>`, `NonNullOwned<T>`. src/boxed.rs 8-14; src/ptr.rs 32-40. -/
inductive Kind | box | reprBox | owned
  deriving DecidableEq, Repr

/-- A variable that holds a pointer to a value. src/boxed.rs 8-14; src/ptr.rs 32-40. -/
structure Ptr where
  kind : Kind
  ty : Ty
  obj : Nat
  deriving DecidableEq, Repr

/-- A value on the heap: the type it was made with, the layout with which its memory is allocated, while it is, and
how often it has been dropped, and its contents. Not in the code: the state of the allocator. -/
structure Obj where
  ty : Ty
  mem : Option (Nat × Nat)
  drops : Nat
  val : Nat
  deriving DecidableEq, Repr

/-- Not in the code: the heap, and the variables. A variable whose value was moved is `none`. -/
structure State where
  objs : List Obj
  vars : List (Option Ptr)
  deriving DecidableEq, Repr

/-- What Rust calls undefined behaviour: memory that is freed with another layout or not allocated, a value that is
dropped as one of another type or twice, a use of a dropped value. -/
inductive Fault | badLayout | notAllocated | wrongType | droppedTwice | useAfterDrop
  deriving DecidableEq, Repr

/-- The operations. src/layout/impls.rs 1092-1113 (`toOpaque`, `toOpaqueReprC`); src/boxed.rs 16-64 (`toReprC`,
`intoBox`, `drop`), 66-92 (`deref`, `set`), 106-115 (`clone`); src/ptr.rs 61-70, 107-113, 173-213 (`intoOwned`, `cast`, `release`, `dealloc`,
`dropInPlace`); std (`new`, `fromOwned`, `forget`). -/
inductive Op
  | new (t : Ty) (v : Nat)        -- `Box::new(v)`
  | toOpaque (i : Nat)            -- `Box::<Opaque<T>>::from(b)`
  | toReprC (i : Nat)             -- `repr_c::Box::from(b)`
  | toOpaqueReprC (i : Nat)       -- `repr_c::Box::<Opaque<T>>::from(b)`
  | intoBox (i : Nat)             -- `repr_c::Box::into(b)`
  | intoOwned (i : Nat)           -- `NonNullOwned::from(NonNull::from(Box::leak(b)))`
  | cast (i : Nat) (t : Ty)       -- `p.cast::<U>()`
  | fromOwned (i : Nat) (t : Ty)  -- `Box::from_raw(p.cast::<T>().as_mut_ptr())`
  | deref (i : Nat)               -- `&*b`, and `&b.concrete`
  | set (i v : Nat)               -- `*b = v`, and `b.concrete = v`, of a value without a drop
  | clone (i : Nat)               -- of a `repr_c::Box<T>`; `Opaque<T>` has no `Clone`
  | drop (i : Nat)                -- of a box
  | forget (i : Nat)              -- of an owned pointer: it has no `Drop`
  | release (i : Nat) (t : Ty)    -- `p.drop_in_place_and_dealloc::<T>()`
  | dropInPlace (i : Nat) (t : Ty)
  | dealloc (i : Nat) (t : Ty)
  deriving DecidableEq, Repr

/-- `refused`: the variable is not of this kind, the program does not compile. `panicked`: the drop of the value
panicked. `value`: the value that a reference refers to, and its contents. Not in the code. -/
inductive Out | unit | refused | panicked | value (o v : Nat)
  deriving DecidableEq, Repr

/-- Not in the code: the variable. -/
def State.var (s : State) (i : Nat) : Option Ptr := (s.vars[i]?).getD none

/-- Not in the code: assignment to a variable. -/
def State.put (s : State) (i : Nat) (p : Option Ptr) : State := { s with vars := s.vars.set i p }

/-- `drop_in_place::<T>`. (core) src/ptr.rs 197, 209. -/
def dropValue (s : State) (o : Nat) (t : Ty) : Except Fault State :=
  match s.objs[o]? with
  | none => .error .useAfterDrop
  | some x =>
      if x.ty.core ≠ t.core then .error .wrongType
      else if x.drops ≠ 0 then .error .droppedTwice
      else .ok { s with objs := s.objs.set o { x with drops := x.drops + 1 } }

/-- src/ptr.rs 178-190: `dealloc::<T>`. Also what a Rust box does with its memory. -/
def freeMemory (s : State) (o : Nat) (t : Ty) : Except Fault State :=
  if t.layout.1 = 0 then .ok s
  else match s.objs[o]? with
    | none => .error .notAllocated
    | some x => match x.mem with
      | none => .error .notAllocated
      | some l => if l ≠ t.layout then .error .badLayout else .ok { s with objs := s.objs.set o { x with mem := none } }

/-- The drop of a `Box<T>`: the value is dropped, then the memory is freed, also if the drop panics. (std)
`repr_c::Box`: src/boxed.rs 52-64, the same by `Box::from_raw`. -/
def dropBox (s : State) (o : Nat) (t : Ty) : Except Fault State :=
  match dropValue s o t with
  | .error f => .error f
  | .ok s' => freeMemory s' o t

/-- src/ptr.rs 192-199: `drop_in_place_and_dealloc`. If the drop panics, the memory is not freed. -/
def releaseOwned (panics : Nat → Bool) (s : State) (o : Nat) (t : Ty) : Except Fault State :=
  match dropValue s o t with
  | .error f => .error f
  | .ok s' => if panics o then .ok s' else freeMemory s' o t

/-- The pointer of a variable of this kind. Not in the code: type checking. -/
def State.has (s : State) (i : Nat) (ks : List Kind) : Option Ptr := (s.var i).filter fun p => p.kind ∈ ks

/-- The result of a function that drops a value. Not in the code. -/
def ended (panics : Nat → Bool) (o : Nat) (s : State) : State × Out := (s, if panics o then .panicked else .unit)

/-- One operation. `panics`: the values whose drop panics. The places are cited at `Op` and at the functions. -/
def step (panics : Nat → Bool) (s : State) : Op → Except Fault (State × Out)
  | .new t v => .ok (⟨s.objs ++ [⟨t, if t.layout.1 = 0 then none else some t.layout, 0, v⟩],
      s.vars ++ [some ⟨.box, t, s.objs.length⟩]⟩, .unit)
  | .toOpaque i => match s.has i [.box] with
      | none => .ok (s, .refused)
      | some p => .ok (s.put i (some { p with ty := .opaque p.ty }), .unit)
  | .toReprC i => match s.has i [.box] with
      | none => .ok (s, .refused)
      | some p => .ok (s.put i (some { p with kind := .reprBox }), .unit)
  | .toOpaqueReprC i => match s.has i [.box] with
      | none => .ok (s, .refused)
      | some p => .ok (s.put i (some { p with kind := .reprBox, ty := .opaque p.ty }), .unit)
  | .intoBox i => match s.has i [.reprBox] with
      | none => .ok (s, .refused)
      | some p => .ok (s.put i (some { p with kind := .box }), .unit)
  | .intoOwned i => match s.has i [.box] with
      | none => .ok (s, .refused)
      | some p => .ok (s.put i (some { p with kind := .owned }), .unit)
  | .cast i t => match s.has i [.owned] with
      | none => .ok (s, .refused)
      | some p => .ok (s.put i (some { p with ty := t }), .unit)
  | .fromOwned i t => match s.has i [.owned] with
      | none => .ok (s, .refused)
      | some p => .ok (s.put i (some { p with kind := .box, ty := t }), .unit)
  | .deref i => match s.has i [.box, .reprBox] with
      | none => .ok (s, .refused)
      | some p => match s.objs[p.obj]? with
        | none => .error .useAfterDrop
        | some x => if x.drops ≠ 0 then .error .useAfterDrop
            else if x.ty.core ≠ p.ty.core then .error .wrongType else .ok (s, .value p.obj x.val)
  | .set i v => match s.has i [.box, .reprBox] with
      | none => .ok (s, .refused)
      | some p => match s.objs[p.obj]? with
        | none => .error .useAfterDrop
        | some x => if x.drops ≠ 0 then .error .useAfterDrop
            else if x.ty.core ≠ p.ty.core then .error .wrongType
            else .ok ({ s with objs := s.objs.set p.obj { x with val := v } }, .unit)
  | .clone i => match s.has i [.reprBox] with
      | none => .ok (s, .refused)
      | some p => match p.ty, s.objs[p.obj]? with
        | .opaque _, _ => .ok (s, .refused)
        | _, none => .error .useAfterDrop
        | t, some x => if x.drops ≠ 0 then .error .useAfterDrop
            else if x.ty.core ≠ p.ty.core then .error .wrongType
            else .ok (⟨s.objs ++ [⟨t, if t.layout.1 = 0 then none else some t.layout, 0, x.val⟩],
              s.vars ++ [some ⟨.reprBox, t, s.objs.length⟩]⟩, .unit)
  | .drop i => match s.has i [.box, .reprBox] with
      | none => .ok (s, .refused)
      | some p => (dropBox (s.put i none) p.obj p.ty).map (ended panics p.obj)
  | .forget i => match s.has i [.owned] with
      | none => .ok (s, .refused)
      | some _ => .ok (s.put i none, .unit)
  | .release i t => match s.has i [.owned] with
      | none => .ok (s, .refused)
      | some p => (releaseOwned panics (s.put i none) p.obj t).map (ended panics p.obj)
  | .dropInPlace i t => match s.has i [.owned] with
      | none => .ok (s, .refused)
      | some p => (dropValue (s.put i none) p.obj t).map (ended panics p.obj)
  | .dealloc i t => match s.has i [.owned] with
      | none => .ok (s, .refused)
      | some p => (freeMemory (s.put i none) p.obj t).map fun s' => (s', .unit)

end Verif.OpaqueBox
