import Verif.Owned.Model

/-!
# Specification of the owning containers

Every container is a plain list of elements; every variable is its own, independent value.  There
is no heap, no pointer and no length field here.
-/
namespace Verif.Owned

inductive Kind
  | rvec | cvec | rstr | cstr | rbs | cbs | rbstr | cbstr | rb | cb
deriving DecidableEq, Repr

/-- A container: its contents, and (for vectors and strings) its capacity. -/
structure AVal (α : Type) where
  kind : Kind
  data : List α
  cap : Nat
deriving DecidableEq, Repr

abbrev Abs (α : Type) := List (Option (AVal α))

section
variable {α : Type} [Inhabited α] (E : Elem α)

def Abs.var (a : Abs α) (i : Nat) : Option (AVal α) := (a[i]?).join

/-- Conversion from Rust to C: same contents, same capacity. -/
def Kind.toC : Kind → Option Kind
  | .rvec => some .cvec | .rstr => some .cstr | .rbs => some .cbs | .rbstr => some .cbstr
  | .rb => some .cb | _ => none

def Kind.toRust : Kind → Option Kind
  | .cvec => some .rvec | .cstr => some .rstr | .cbs => some .rbs | .cbstr => some .rbstr
  | .cb => some .rb | _ => none

/-- The kinds with a `Clone`. -/
def Kind.cloneable : Kind → Bool
  | .cvec | .cstr | .cbs | .cb => true
  | _ => false

/-- The kinds with a `DerefMut` to a slice. -/
def Kind.writable : Kind → Bool
  | .cvec | .cbs | .cb => true
  | _ => false

/-- What an edit does to a vector, as a list with a capacity. -/
def Edit.spec (str : Bool) (i : Nat) (a : Abs α) (d : List α) (cap : Nat) (e : Edit α) :
    Abs α × (List α × Nat) × EOut α :=
  if str && !e.okText E then (a, (d, cap), .illTyped)
  else match e with
  | .extend xs g =>
      (a, (d ++ xs, if d.length + xs.length ≤ cap then cap else d.length + xs.length + g), .unit)
  | .pop => (a, (d.dropLast, cap), .popped d.getLast?)
  | .truncate n => (a, (d.take n, cap), .dropped (d.drop n))
  | .set k x => if k < d.length then (a, (d.set k x, cap), .dropped [d.getD k x]) else (a, (d, cap), .oob)
  | .realloc n => (a, (d, max n d.length), .unit)
  | .replace c extra => (a, (c, c.length + extra), .dropped d)
  | .swap j =>
      let k := if str then .rstr else .rvec
      if j = i then (a, (d, cap), .illTyped) else
      match a.var j with
      | some w => if w.kind = k then (a.set j (some ⟨k, d, cap⟩), (w.data, w.cap), .unit)
                  else (a, (d, cap), .illTyped)
      | none => (a, (d, cap), .illTyped)

def editsSpec (str : Bool) (i : Nat) (a : Abs α) (d : List α × Nat) : List (Edit α) → Abs α × (List α × Nat) × List (EOut α)
  | [] => (a, d, [])
  | e :: es =>
      let (a1, d1, o) := e.spec E str i a d.1 d.2
      let (a2, d2, os) := editsSpec str i a1 d1 es
      (a2, d2, o :: os)

def Abs.step (a : Abs α) : Op α → Abs α × Out α
  | .newVec c extra => (a ++ [some ⟨.rvec, c, c.length + extra⟩], .unit)
  | .newStr c extra =>
      if E.text c then (a ++ [some ⟨.rstr, c, c.length + extra⟩], .unit) else (a, .illTyped)
  | .newBoxSlice c => (a ++ [some ⟨.rbs, c, c.length⟩], .unit)
  | .newBoxStr c => if E.text c then (a ++ [some ⟨.rbstr, c, c.length⟩], .unit) else (a, .illTyped)
  | .newBox x => (a ++ [some ⟨.cb, [x], 1⟩], .unit)
  | .emptyVec => (a ++ [some ⟨.cvec, [], 0⟩], .unit)
  | .emptyStr => (a ++ [some ⟨.cstr, [], 0⟩], .unit)
  | .defaultBoxSlice => (a ++ [some ⟨.cbs, [], 0⟩], .unit)
  | .toC i =>
      match a.var i with
      | some v => match v.kind.toC with
        | some k => (a.set i (some { v with kind := k }), .unit)
        | none => (a, .illTyped)
      | none => (a, .illTyped)
  | .toRust i =>
      match a.var i with
      | some v => match v.kind.toRust with
        | some k => (a.set i (some { v with kind := k }), .unit)
        | none => (a, .illTyped)
      | none => (a, .illTyped)
  | .strToBoxC i =>
      match a.var i with
      | some v => if v.kind = .rstr then (a.set i (some ⟨.cbstr, v.data, v.data.length⟩), .unit)
                  else (a, .illTyped)
      | none => (a, .illTyped)
  | .boxCToStr i =>
      match a.var i with
      | some v => if v.kind = .cbstr then (a.set i (some ⟨.rstr, v.data, v.data.length⟩), .unit)
                  else (a, .illTyped)
      | none => (a, .illTyped)
  | .clone i =>
      match a.var i with
      | some v => if v.kind.cloneable then (a ++ [some { v with cap := v.data.length }], .unit)
                  else (a, .illTyped)
      | none => (a, .illTyped)
  | .read i =>
      match a.var i with
      | some v => (a, .contents v.data)
      | none => (a, .illTyped)
  | .capacity i =>
      match a.var i with
      | some v => if v.kind = .rvec ∨ v.kind = .rstr then (a, .num (if E.zst then usizeMax else v.cap))
                  else (a, .illTyped)
      | none => (a, .illTyped)
  | .write i k x =>
      match a.var i with
      | some v =>
          if v.kind.writable then
            if k < v.data.length then
              (a.set i (some { v with data := v.data.set k x }), .dropped [v.data.getD k x])
            else (a, .oob)
          else (a, .illTyped)
      | none => (a, .illTyped)
  | .edit i e =>
      match a.var i with
      | some v =>
          if v.kind = .rvec ∨ v.kind = .rstr then
            let (a', d', o) := e.spec E (v.kind == .rstr) i a v.data v.cap
            (a'.set i (some ⟨v.kind, d'.1, d'.2⟩), .edited o)
          else (a, .illTyped)
      | none => (a, .illTyped)
  | .withMut i es panics =>
      match a.var i with
      | some v =>
          if v.kind = .cvec ∨ v.kind = .cstr then
            let (a', d', os) := editsSpec E (v.kind == .cstr) i a (v.data, v.cap) es
            (a'.set i (some ⟨v.kind, d'.1, d'.2⟩), .closure os panics)
          else (a, .illTyped)
      | none => (a, .illTyped)
  | .drop i =>
      match a.var i with
      | some v => (a.set i none, .dropped v.data)
      | none => (a, .illTyped)

def Abs.run (a : Abs α) : List (Op α) → Abs α × List (Out α)
  | [] => (a, [])
  | op :: ops =>
      let (a1, o) := a.step E op
      let (a2, os) := Abs.run a1 ops
      (a2, o :: os)
end

end Verif.Owned
