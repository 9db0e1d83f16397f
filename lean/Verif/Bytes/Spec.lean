import Verif.Bytes.Model
/-!
# Specification of `Bytes` histories

`Bytes` values are plain byte strings: no representation, no heap, no counts. A program state is a
list of byte-string variables (`none` = moved out or dropped) and a list of `Arc<[u8]>` variables.
-/
namespace Verif.Bytes.Spec
open Verif.Bytes (Byte Op Out)

/-- Value-level state. -/
structure St where
  bytes : List (Option (List Byte))
  arcs : List (Option (List Byte))

/-- The byte string held by variable `i`, if it is live. -/
def St.get (s : St) (i : Nat) : Option (List Byte) := (s.bytes[i]?).join
def St.getArc (s : St) (j : Nat) : Option (List Byte) := (s.arcs[j]?).join
def St.push (s : St) (d : List Byte) : St := { s with bytes := s.bytes ++ [some d] }
def St.set (s : St) (i : Nat) (d : Option (List Byte)) : St := { s with bytes := s.bytes.set i d }
def St.pushArc (s : St) (d : List Byte) : St := { s with arcs := s.arcs ++ [some d] }

/-- First index of a range. -/
def lower : Bound → Nat
  | .incl i => i
  | .excl i => i + 1
  | .unb => 0

/-- One past the last index of a range over `n` elements. -/
def upper (n : Nat) : Bound → Nat
  | .incl i => i + 1
  | .excl i => i
  | .unb => n

/-- The range designates a sub-slice of a slice of `n` elements. -/
def validRange (n : Nat) (lo hi : Bound) : Prop := lower lo ≤ upper n hi ∧ upper n hi ≤ n

/-- `&d[lo..hi]`. -/
def slice (d : List Byte) (lo hi : Bound) : List Byte :=
  (d.drop (lower lo)).take (upper d.length hi - lower lo)

/-- What each operation may answer, and what it does to the variables. -/
inductive Step : St → Op → Out → St → Prop
  -- allocation failure aborts: nothing observable changes
  | oom {s op} : Step s op .oom s
  -- the compiler rejects uses of moved variables
  | moved_bytes {s op i} (h : s.get i = none)
      (hop : op = .clone i ∨ op = .noallocClone i ∨ op = .drop i ∨ (∃ lo hi, op = .shrinkTo i lo hi)
        ∨ (∃ lo hi, op = .subsliced i lo hi) ∨ (∃ k, op = .splitAt i k) ∨ op = .upgrade i
        ∨ op = .noallocUpgrade i ∨ op = .tryIntoArc i ∨ (∃ n, op = .read i n) ∨ op = .asSlice i) :
      Step s op .illTyped s
  | moved_arc {s op j} (h : s.getArc j = none)
      (hop : op = .arcClone j ∨ op = .arcDrop j ∨ op = .fromArc j) : Step s op .illTyped s
  -- constructors
  | fromStatic {s d} : Step s (.fromStatic d) (.bytes s.bytes.length) (s.push d)
  | fromSlice {s d} : Step s (.fromSlice d) (.bytes s.bytes.length) (s.push d)
  | inlineSlice {s d} : Step s (.inlineSlice d) (.bytes s.bytes.length) (s.push d)
  | inlineSlice_none {s d} : Step s (.inlineSlice d) .none_ s
  | copied {s d} : Step s (.copied d) (.bytes s.bytes.length) (s.push d)
  | fromArcT {s d} : Step s (.fromArcT d) (.bytes s.bytes.length) (s.push d)
  | fromBox {s d} : Step s (.fromBox d) (.bytes s.bytes.length) (s.push d)
  | fromArc {s j d} (h : s.getArc j = some d) :
      Step s (.fromArc j) (.bytes s.bytes.length) { s.push d with arcs := s.arcs.set j none }
  -- `Arc`s of the user
  | arcNew {s d} : Step s (.arcNew d) (.arc s.arcs.length) (s.pushArc d)
  | arcClone {s j d} (h : s.getArc j = some d) : Step s (.arcClone j) (.arc s.arcs.length) (s.pushArc d)
  | arcDrop {s j d} (h : s.getArc j = some d) :
      Step s (.arcDrop j) .unit { s with arcs := s.arcs.set j none }
  -- duplication, destruction
  | clone {s i d} (h : s.get i = some d) : Step s (.clone i) (.bytes s.bytes.length) (s.push d)
  | noallocClone {s i d} (h : s.get i = some d) :
      Step s (.noallocClone i) (.bytes s.bytes.length) (s.push d)
  | noallocClone_none {s i d} (h : s.get i = some d) : Step s (.noallocClone i) .none_ s
  | drop {s i d} (h : s.get i = some d) : Step s (.drop i) .unit (s.set i none)
  -- sub-slicing: Rust's slice-indexing rules
  | shrinkTo {s i lo hi d} (h : s.get i = some d) (hr : validRange d.length lo hi) :
      Step s (.shrinkTo i lo hi) .unit (s.set i (some (slice d lo hi)))
  | shrinkTo_panic {s i lo hi d} (h : s.get i = some d) (hr : ¬ validRange d.length lo hi) :
      Step s (.shrinkTo i lo hi) .panic s
  | subsliced {s i lo hi d} (h : s.get i = some d) (hr : validRange d.length lo hi) :
      Step s (.subsliced i lo hi) .unit (s.set i (some (slice d lo hi)))
  | subsliced_panic {s i lo hi d} (h : s.get i = some d) (hr : ¬ validRange d.length lo hi) :
      Step s (.subsliced i lo hi) .panic (s.set i none)
  | splitAt {s i k d} (h : s.get i = some d) (hk : k ≤ d.length) :
      Step s (.splitAt i k) (.bytes2 s.bytes.length (s.bytes.length + 1))
        (((s.set i none).push (d.take k)).push (d.drop k))
  | splitAt_err {s i k d} (h : s.get i = some d) (hk : ¬ k ≤ d.length) : Step s (.splitAt i k) .err s
  -- conversions
  | upgrade {s i d} (h : s.get i = some d) : Step s (.upgrade i) .unit s
  | noallocUpgrade {s i d} (h : s.get i = some d) : Step s (.noallocUpgrade i) .unit s
  | noallocUpgrade_err {s i d} (h : s.get i = some d) : Step s (.noallocUpgrade i) .err s
  | tryIntoArc {s i d} (h : s.get i = some d) :
      Step s (.tryIntoArc i) (.arc s.arcs.length) ((s.set i none).pushArc d)
  | tryIntoArc_err {s i d} (h : s.get i = some d) : Step s (.tryIntoArc i) .err s
  -- reading
  | read {s i n d} (h : s.get i = some d) :
      Step s (.read i n) (.data (d.take n)) (s.set i (some (d.drop n)))
  | asSlice {s i d} (h : s.get i = some d) : Step s (.asSlice i) (.data d) s
  -- borrows end without being noticed by the remaining values
  | endBorrow {s b} : Step s (.endBorrow b) .unit s
  | endBorrow_live {s b} : Step s (.endBorrow b) .illTyped s

/-- Whole histories. -/
inductive Run : St → List Op → List Out → St → Prop
  | nil {s} : Run s [] [] s
  | cons {s op o s' ops os s''} (h : Step s op o s') (t : Run s' ops os s'') :
      Run s (op :: ops) (o :: os) s''

end Verif.Bytes.Spec
