import Verif.Dyn.Model

/-!
# Specification of closures and virtual pointers

No function pointers, no reference counts: a handle just designates an object, a call runs the
object's own code, and an object lives as long as some variable owns it.
-/
namespace Verif.Dyn

/-- What a handle looks like to the program. -/
inductive Face
  | rust
  | arcFn (clonable : Bool)
  | boxFn (callable freeable : Bool)
  | refFn
  | vptr (d : Decl)
deriving DecidableEq, Repr

/-- A handle: it owns its object, or (`borrow = some ex`) borrows it, exclusively if `ex`. -/
structure AVal where
  obj : Nat
  face : Face
  borrow : Option Bool
deriving DecidableEq, Repr

/-- `leaked`: its owner could not release it, because there was no function to do it. -/
structure AObj (σ : Type) where
  ty : Nat
  own : Own
  st : σ
  leaked : Bool
deriving DecidableEq, Repr

/-- A call in progress. -/
structure AAct (V : Type) where
  var : Nat
  obj : Nat
  name : String
  args : List V
  mt : Bool
deriving DecidableEq, Repr

structure Abs (σ V : Type) where
  objs : List (AObj σ)
  vars : List (Option AVal)
  acts : List (Option (AAct V))
deriving DecidableEq, Repr

section
variable {σ V : Type}

def Abs.init : Abs σ V := ⟨[], [], []⟩
def Abs.var (a : Abs σ V) (i : Nat) : Option AVal := (a.vars[i]?).join
def Abs.act (a : Abs σ V) (c : Nat) : Option (AAct V) := (a.acts[c]?).join

def AVal.owns (k : Nat) : Option AVal → Bool
  | some v => v.obj == k && v.borrow.isNone
  | none => false

/-- The number of variables that own the object. -/
def Abs.owners (a : Abs σ V) (k : Nat) : Nat := a.vars.countP (AVal.owns k)

/-- Rust's rules on borrows.  A variable through which calls are going on can be shared only, and not
at all if one of the calls is exclusive; so for a local variable which is borrowed. -/
def Abs.usable (a : Abs σ V) (i : Nat) (v : AVal) (mt : Bool) : Bool :=
  a.acts.all (fun
    | some c => !(c.var == i && (mt || c.mt))
    | none => true) &&
  (v.borrow.isSome || a.vars.all fun
    | some ⟨k, _, some ex⟩ => !(k == v.obj && (mt || ex))
    | _ => true)

/-- The receiver of a method: `some true` for `&mut self`, `some false` for `&self`; `none` when there
is no such method. -/
def AVal.receiver (own : Own) (v : AVal) (name : String) (mt : Bool) : Option Bool :=
  match v.face with
  | .rust => match own with
    | .box | .stack => some mt
    | _ => if mt then none else some false
  | .arcFn _ => if name = "" then some false else none
  | .boxFn _ _ | .refFn => if name = "" then some true else none
  | .vptr d => (d.methods.find? (·.1 == name)).map (·.2)

/-- The conversion which applies to an owner. -/
def coercion : Own → Option Coercible
  | .box => some .box
  | .rc => some (.rc false)
  | .arc => some (.rc true)
  | _ => none

def Abs.setVar (a : Abs σ V) (i : Nat) (v : Option AVal) : Abs σ V := { a with vars := a.vars.set i v }
def Abs.push (a : Abs σ V) (v : AVal) : Abs σ V := { a with vars := a.vars ++ [some v] }
/-- A new object with one owner. -/
def Abs.create (a : Abs σ V) (t : Nat) (own : Own) (st : σ) (f : Face) : Abs σ V :=
  { a with objs := a.objs ++ [⟨t, own, st, false⟩], vars := a.vars ++ [some ⟨a.objs.length, f, none⟩] }

def Abs.step (S : Sem σ V) (a : Abs σ V) : Op σ V → Abs σ V × Out σ V
  | .newBox t st => (a.create t .box st .rust, .unit)
  | .newRc t st => (a.create t .rc st .rust, .unit)
  | .newArc t st => (a.create t .arc st .rust, .unit)
  | .newStack t st => (a.create t .stack st .rust, .unit)
  | .foreignArc t st retain => (a.create t .foreign st (.arcFn retain), .unit)
  | .foreignBox t st call free => (a.create t .foreign st (.boxFn call free), .unit)
  | .toArcFn i =>
      match a.var i with
      | some v => match a.objs[v.obj]?, v.face with
        | some ⟨_, .arc, _, _⟩, .rust =>
            if a.usable i v true then (a.setVar i (some ⟨v.obj, .arcFn true, none⟩), .unit) else (a, .illTyped)
        | _, _ => (a, .illTyped)
      | none => (a, .illTyped)
  | .toBoxFn i =>
      match a.var i with
      | some v => match a.objs[v.obj]?, v.face with
        | some ⟨_, .box, _, _⟩, .rust =>
            if a.usable i v true then (a.setVar i (some ⟨v.obj, .boxFn true true, none⟩), .unit) else (a, .illTyped)
        | _, _ => (a, .illTyped)
      | none => (a, .illTyped)
  | .toRefFn i =>
      match a.var i with
      | some v => match a.objs[v.obj]?, v.face with
        | some ⟨_, .stack, _, _⟩, .rust =>
            if a.usable i v true then (a.push ⟨v.obj, .refFn, some true⟩, .unit) else (a, .illTyped)
        | _, _ => (a, .illTyped)
      | none => (a, .illTyped)
  | .toVptr i d =>
      match a.var i with
      | some v => match a.objs[v.obj]?, v.face with
        | some o, .rust => match coercion o.own with
          | some src =>
              if a.usable i v true && (d.generated && src.isEligible d) then
                (a.setVar i (some ⟨v.obj, .vptr d, none⟩), .unit)
              else (a, .illTyped)
          | none => (a, .illTyped)
        | _, _ => (a, .illTyped)
      | none => (a, .illTyped)
  | .refVptr i d mt =>
      match a.var i with
      | some v => match a.objs[v.obj]?, v.face with
        | some ⟨_, .stack, _, _⟩, .rust =>
            if a.usable i v mt && (d.generated && (Coercible.ref mt).isEligible d) then
              (a.push ⟨v.obj, .vptr d, some mt⟩, .unit)
            else (a, .illTyped)
        | _, _ => (a, .illTyped)
      | none => (a, .illTyped)
  | .clone i =>
      match a.var i with
      | some v => match a.objs[v.obj]? with
        | some o =>
          if !a.usable i v false then (a, .illTyped)
          else match v.face with
          | .rust => match o.own with
            | .rc | .arc => (a.push v, .unit)
            | _ => (a, .illTyped)
          | .arcFn clonable => if clonable then (a.push v, .unit) else (a, .panicked)
          | .vptr d =>
              if !d.clone then (a, .illTyped)
              -- a deep copy
              else if o.own = .box then (a.create o.ty .box (S.clone o.ty o.st) v.face, .unit)
              else (a.push v, .unit)
          | _ => (a, .illTyped)
        | none => (a, .illTyped)
      | none => (a, .illTyped)
  | .enter i name args mt =>
      match a.var i with
      | some v => match a.objs[v.obj]? with
        | some o => match v.receiver o.own name mt with
          | some mt =>
            if a.usable i v mt then
              match v.face with
              | .boxFn false _ => (a, .panicked)
              | _ => ({ a with acts := a.acts ++ [some ⟨i, v.obj, name, args, mt⟩] }, .unit)
            else (a, .illTyped)
          | none => (a, .illTyped)
        | none => (a, .illTyped)
      | none => (a, .illTyped)
  | .leave c =>
      match a.act c with
      | some x => match a.objs[x.obj]? with
        | some o =>
            let r := S.call o.ty x.name o.st x.args
            ({ a with objs := a.objs.set x.obj { o with st := r.1 }, acts := a.acts.set c none }, .returned r.2)
        | none => (a, .illTyped)
      | none => (a, .illTyped)
  | .drop i =>
      match a.var i with
      | some v => match a.objs[v.obj]? with
        | some o =>
          if !a.usable i v true then (a, .illTyped)
          else
            let a' := a.setVar i none
            match v.face with
            | .boxFn _ false => ({ a' with objs := a.objs.set v.obj { o with leaked := true } }, .panicked)
            | _ =>
              -- the object goes with its last owner
              (a', .dropped (if v.borrow.isNone && a'.owners v.obj == 0 then some o.st else none))
        | none => (a, .illTyped)
      | none => (a, .illTyped)

def Abs.run (S : Sem σ V) (a : Abs σ V) : List (Op σ V) → Abs σ V × List (Out σ V)
  | [] => (a, [])
  | op :: ops =>
      let r := a.step S op
      let r' := Abs.run S r.1 ops
      (r'.1, r.2 :: r'.2)
end
end Verif.Dyn
