import Verif.Stabby.Types
import Verif.Layout.Spec
/-
Specification for C93: which byte images are values of the types of `stabby`.

`SEnc tg strict t v bs` says that `bs` represents the value `v` of type `t`.
With `strict = true` the two pointers of a slice are the first item and the end
of the last one: `n` items further for some `n` (`n` bytes further when the items
have no size).  With `strict = false` they are just any two pointers that are
not null and aligned for the items.
-/
namespace Verif.Stabby
open Verif.Layout

/-- `bs` is the image of the address `a`, not null and a multiple of `align`. -/
def PtrImage (tg : Target) (align a : Nat) (bs : List UInt8) : Prop :=
  bs.length = tg.ptrSize ∧ natOf tg bs = a ∧ a ≠ 0 ∧ align ∣ a

/-- The bytes of the second of two fields `a` and `b` of a `repr(C)` struct. -/
def second (a b : Nat × Nat) (bs : List UInt8) : List UInt8 := slice bs (roundUp a.1 b.2) b.1

/-- `s` and `e` are the two ends of a slice of items of this size and alignment. -/
def Ends (strict : Bool) (size align s e : Nat) : Prop :=
  s ≠ 0 ∧ align ∣ s ∧
    if strict then ∃ n, e = s + n * (if size = 0 then 1 else size) else e ≠ 0 ∧ align ∣ e

/-- The image of a slice: the addresses of its ends. -/
def SliceImage (tg : Target) (strict : Bool) (size align s e : Nat) (bs : List UInt8) : Prop :=
  bs.length = (structLay [ptrLay tg, ptrLay tg]).1 ∧ natOf tg (slice bs 0 tg.ptrSize) = s ∧
    natOf tg (second (ptrLay tg) (ptrLay tg) bs) = e ∧ Ends strict size align s e

/-- Types that may be put in an `Option` without a tag. -/
def shasNiche : STy → Bool
  | .of t => hasNiche t
  | .ptr _ _ => true
  | _ => false

/-- The image of `None`: a null pointer. -/
def SNoneImage (tg : Target) : STy → List UInt8 → Prop
  | .of t, bs => NoneImage tg t bs
  | .ptr _ _, bs => natOf tg bs = 0
  | _, _ => False

/-- `bs` represents the value `v` of type `t`. -/
def SEnc (tg : Target) (strict : Bool) : STy → Val → List UInt8 → Prop
  | .of t, v, bs => Enc tg true t v bs
  | .ptr _ t, .addr a, bs => PtrImage tg (salign tg t) a bs
  | .slice _ t, .tup [.addr s, .addr e], bs => SliceImage tg strict (ssize tg t) (salign tg t) s e bs
  | .str _, .tup [.addr s, .addr e], bs => SliceImage tg strict 1 1 s e bs
  | .dyn data vt, .tup [v, .addr a], bs => bs.length = ssize tg (.dyn data vt) ∧
      SEnc tg strict data v (slice bs 0 (ssize tg data)) ∧
      PtrImage tg (salign tg vt) a (second (slay tg data) (ptrLay tg) bs)
  | .dynRef vt, .tup [.addr p, .addr a], bs => bs.length = ssize tg (.dynRef vt) ∧
      PtrImage tg 1 p (slice bs 0 tg.ptrSize) ∧
      PtrImage tg (salign tg vt) a (second (ptrLay tg) (ptrLay tg) bs)
  | .vtDrop, .addr a, bs => bs.length = ssize tg .vtDrop ∧ PtrImage tg 1 a (slice bs 0 tg.ptrSize)
  | .vtable head tail, .tup [h, t], bs => bs.length = ssize tg (.vtable head tail) ∧
      SEnc tg strict tail t (slice bs 0 (ssize tg tail)) ∧
      SEnc tg strict head h (second (slay tg tail) (slay tg head) bs)
  | .alias _ t, v, bs => SEnc tg strict t v bs
  | .option t, .none, bs => bs.length = ssize tg t ∧ SNoneImage tg t bs
  | .option t, .some v, bs => SEnc tg strict t v bs
  | _, _, _ => False

/-- The types that can be passed by value; see `Verif.Layout.supported`. What pointers point to can be any type. -/
def ssupported (tg : Target) : STy → Bool
  | .of t => supported tg t && noOut t
  | .ptr _ t | .slice _ t | .dynRef t => 0 < salign tg t
  | .str _ | .vtDrop => true
  | .dyn data vt => ssupported tg data && 0 < salign tg vt
  | .vtable head tail => ssupported tg head && ssupported tg tail
  | .alias _ t => ssupported tg t
  | .option t => ssupported tg t && shasNiche t

/-- No slices of items that have no size but an alignment above 1. (The size of a Rust type is always a multiple of
its alignment.) -/
def sizedItems (tg : Target) : STy → Bool
  | .slice _ t => salign tg t ∣ ssize tg t && (ssize tg t != 0 || salign tg t == 1)
  | .dyn data _ => sizedItems tg data
  | .vtable head tail => sizedItems tg head && sizedItems tg tail
  | .alias _ t | .option t => sizedItems tg t
  | _ => true

/-- `Extends t u`: `u` is `t` or a vtable that `t` extends, through any number of traits and markers. -/
inductive Extends : STy → STy → Prop
  | refl (t : STy) : Extends t t
  | step {head tail u : STy} : Extends tail u → Extends (.vtable head tail) u
  | mark {k : AliasKind} {t u : STy} : Extends t u → Extends (.alias k t) u

end Verif.Stabby
