import Verif.Layout.Rust
/-
Specification for C20-C25: which byte images are values of a Rust type.

`Enc tg al t v bs` says that the bytes `bs` are a representation of the value
`v` of type `t`.  It follows the Rust Reference ("Behavior considered
undefined: invalid values", "Type layout") and does not mention the crate.
Padding bytes are arbitrary, so a value has several representations.

References must be non-null and aligned.  The language lets a `NonNull` be
misaligned; with `al = true` the relation is restricted to values whose
`NonNull` pointers are aligned, as pointers to an existing object always are.
-/
namespace Verif.Layout

/-- Values. -/
inductive Val
  | int (i : Int)
  | float (bits : Nat)
  | bool (b : Bool)
  /-- the `i`-th variant of an enum -/
  | variant (i : Nat)
  /-- a pointer to this address -/
  | addr (a : Nat)
  | arr (vs : List Val)
  /-- the fields of a struct -/
  | tup (vs : List Val)
  | none
  | some (v : Val)
  | unit
  | blob (bs : List UInt8)

/-- The values an integer type can hold. -/
def InRange (tg : Target) (k : IntTy) (i : Int) : Prop :=
  if k.signed then -(2 ^ (8 * k.size tg - 1) : Int) ≤ i ∧ i < 2 ^ (8 * k.size tg - 1)
  else 0 ≤ i ∧ i < 2 ^ (8 * k.size tg)

instance (tg : Target) (k : IntTy) (i : Int) : Decidable (InRange tg k i) := by
  unfold InRange; exact inferInstance

/-- `bs` is the two's complement image of `i`. -/
def IntImage (tg : Target) (k : IntTy) (i : Int) (bs : List UInt8) : Prop :=
  bs.length = k.size tg ∧ InRange tg k i ∧ (natOf tg bs : Int) = i % 2 ^ (8 * k.size tg)

/-- The discriminant of the `i`-th variant: the explicit one, else one more
than the previous variant's, else (first variant) zero. -/
inductive HasDisc (vs : List (Option Int)) : Nat → Int → Prop
  | explicit {i : Nat} {d : Int} : vs[i]? = some (some d) → HasDisc vs i d
  | first : vs[0]? = some none → HasDisc vs 0 0
  | next {i : Nat} {d : Int} : vs[i + 1]? = some none → HasDisc vs i d → HasDisc vs (i + 1) (d + 1)

/-- Types that may be put in an `Option` without a tag. -/
def hasNiche : Ty → Bool
  | .ref _ _ | .out _ | .fnPtr => true
  | .struct true (.ref _ _ :: _) => true
  | .transparent (f :: _) => hasNiche f
  | _ => false

/-- The image of `None`: a null pointer. -/
def NoneImage (tg : Target) : Ty → List UInt8 → Prop
  | .ref _ _, bs | .out _, bs | .fnPtr, bs => natOf tg bs = 0
  | .struct true (.ref _ _ :: _), bs => natOf tg (slice bs 0 tg.ptrSize) = 0
  | .transparent (f :: _), bs => NoneImage tg f bs
  | _, _ => False

mutual
/-- `bs` represents the value `v` of type `t`. -/
def Enc (tg : Target) (al : Bool) : Ty → Val → List UInt8 → Prop
  | .int k, .int i, bs => IntImage tg k i bs
  | .float k, .float n, bs => bs.length = k.size ∧ natOf tg bs = n
  | .bool, .bool b, bs => bs = [if b then 1 else 0]
  | .enum k vs, .variant i, bs => ∃ d, HasDisc vs i d ∧ IntImage tg k d bs
  | .rawPtr, .addr a, bs => bs.length = tg.ptrSize ∧ natOf tg bs = a
  | .ref k t, .addr a, bs => bs.length = tg.ptrSize ∧ natOf tg bs = a ∧ a ≠ 0 ∧
      (k.isReference ∨ al → alignOf' tg t ∣ a)
  | .out t, .addr a, bs => bs.length = tg.ptrSize ∧ natOf tg bs = a ∧ a ≠ 0 ∧ alignOf' tg t ∣ a
  | .fnPtr, .addr a, bs => bs.length = tg.ptrSize ∧ natOf tg bs = a ∧ a ≠ 0
  | .array t n, .arr vs, bs => vs.length = n ∧ bs.length = n * sizeOf' tg t ∧
      ∀ i v, vs[i]? = some v → Enc tg al t v (slice bs (i * sizeOf' tg t) (sizeOf' tg t))
  | .struct n fs, .tup vs, bs => bs.length = sizeOf' tg (.struct n fs) ∧
      EncFields tg al fs (offsetsFrom 0 (lays tg fs)) vs bs
  | .transparent fs, .tup vs, bs => bs.length = sizeOf' tg (.transparent fs) ∧
      EncFields tg al fs (fs.map fun _ => 0) vs bs
  | .option t, .none, bs => bs.length = sizeOf' tg t ∧ NoneImage tg t bs
  | .option t, .some v, bs => Enc tg al t v bs
  | .tagged t, .none, bs => bs.length = sizeOf' tg (.tagged t) ∧ slice bs 0 1 = [0]
  | .tagged t, .some v, bs => bs.length = sizeOf' tg (.tagged t) ∧ slice bs 0 1 = [1] ∧
      Enc tg al t v (slice bs (roundUp 1 (alignOf' tg t)) (sizeOf' tg t))
  | .unit, .unit, bs => bs = []
  | .opaque s _, .blob b, bs => bs = b ∧ b.length = s
  | _, _, _ => False

/-- The fields `vs` are represented at these offsets of `bs`. -/
def EncFields (tg : Target) (al : Bool) : List Ty → List Nat → List Val → List UInt8 → Prop
  | [], [], [], _ => True
  | f :: fs, o :: os, v :: vs, bs =>
      Enc tg al f v (slice bs o (sizeOf' tg f)) ∧ EncFields tg al fs os vs bs
  | _, _, _, _ => False
end

mutual
/-- The types that can be passed by value: not zero-sized themselves (the crate
documents that as a logic error), no opaque component, enums as rustc accepts
them, and `repr(transparent)` structs whose first field is the one with data. -/
def supported (tg : Target) : Ty → Bool
  | .int _ | .float _ | .bool | .rawPtr | .fnPtr => true
  | .ref _ t | .out t => 0 < alignOf' tg t
  | .enum k vs => discsOk tg k 0 [] vs
  | .array t n => n != 0 && supported tg t
  | .struct _ fs => supportedFields tg fs
  | .transparent [] => false
  | .transparent (f :: fs) => supported tg f && fs.all fun | .unit => true | _ => false
  | .option t => supported tg t && hasNiche t
  | .tagged t => supported tg t
  | .unit | .opaque _ _ => false

/-- Fields may in addition be `()` or `PhantomData`. -/
def supportedFields (tg : Target) : List Ty → Bool
  | [] => true
  | .unit :: fs => supportedFields tg fs
  | f :: fs => supported tg f && supportedFields tg fs

/-- rustc's checks on an enum: every discriminant fits the repr and none occurs
twice (`seen` are the earlier ones). -/
def discsOk (tg : Target) (k : IntTy) (next : Int) (seen : List Int) : List (Option Int) → Bool
  | [] => true
  | v :: vs =>
    let d := v.getD next
    InRange tg k d && !seen.contains d && discsOk tg k (d + 1) (d :: seen) vs
end

mutual
/-- No `Out` reference by value. -/
def noOut : Ty → Bool
  | .out _ => false
  | .array t _ | .option t | .tagged t => noOut t
  | .struct _ fs | .transparent fs => noOuts fs
  | _ => true

def noOuts : List Ty → Bool
  | [] => true
  | f :: fs => noOut f && noOuts fs
end

/-! ### Struct layout, declaratively -/

/-- `x` is the least multiple of `a` that is at least `n`. -/
def LeastMultiple (a n x : Nat) : Prop :=
  a ∣ x ∧ n ≤ x ∧ ∀ y, a ∣ y → n ≤ y → x ≤ y

/-- The layout rule shared by C compilers and `repr(C)`: members with these
(size, align) are put, in order, each at the first suitably aligned offset past
the previous member (`pos` is the first free byte); the struct is aligned like
its most aligned member and its size is padded to a multiple of that. -/
inductive PlacedFrom : Nat → List (Nat × Nat) → List Nat → Nat → Prop
  | nil {pos : Nat} : PlacedFrom pos [] [] pos
  | cons {pos s a o fin : Nat} {ms : List (Nat × Nat)} {os : List Nat} :
      LeastMultiple a pos o → PlacedFrom (o + s) ms os fin →
      PlacedFrom pos ((s, a) :: ms) (o :: os) fin

/-- Members `ms` are laid out at `offs` in a struct of this size and alignment. -/
structure IsStruct (ms : List (Nat × Nat)) (offs : List Nat) (size align : Nat) : Prop where
  align_ge : 1 ≤ align ∧ ∀ m ∈ ms, m.2 ≤ align
  align_le : align = 1 ∨ ∃ m ∈ ms, m.2 = align
  placed : ∃ fin, PlacedFrom 0 ms offs fin ∧ LeastMultiple align fin size

/-- The elements of `l` at these indices. -/
def pick {α : Type} (l : List α) (idx : List Nat) : List α := idx.filterMap (l[·]?)

end Verif.Layout
