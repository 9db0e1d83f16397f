import Verif.CharP.Model

/-!
# Specification of owned C strings

What a program observes when strings are plain values: a `char_p::Box` is a list of non-NUL bytes,
a `String`/`Vec<u8>` is a list of bytes. No heap, no sentinel, no terminators.
-/
namespace Verif.CharP

/-- The UTF-8 bytes of a text. -/
def utf8 (cs : List Char) : Bytes := cs.flatMap String.utf8EncodeChar

/-- Remove one trailing NUL, if any. -/
def strip (c : Bytes) : Bytes := if c.getLast? = some 0 then c.dropLast else c

structure Abs where
  boxes : List (Option Bytes)
  bufs : List (Option Bytes)

def Abs.init : Abs := ⟨[], []⟩

/-- What each operation means on plain values. -/
def Abs.step (a : Abs) : Op → Abs × Out
  | .newString cs _ => ({ a with bufs := a.bufs ++ [some (utf8 cs)] }, .buf a.bufs.length)
  | .tryFrom v => match (a.bufs[v]?).join with
    | none => (a, .illTyped)
    | some c => if 0 ∈ c.dropLast then (a, .err)
      else (⟨a.boxes ++ [some (strip c)], a.bufs.set v none⟩, .box a.boxes.length)
  | .new v => match (a.bufs[v]?).join with
    | none => (a, .illTyped)
    | some c => if 0 ∈ c.dropLast then ({ a with bufs := a.bufs.set v none }, .panic)
      else (⟨a.boxes ++ [some (strip c)], a.bufs.set v none⟩, .box a.boxes.length)
  | .fromCString c =>
    if 0 ∈ c then (a, .illTyped)
    else if validUtf8 c then ({ a with boxes := a.boxes ++ [some c] }, .box a.boxes.length)
    else (a, .panic)
  | .clone i => match (a.boxes[i]?).join with
    | none => (a, .illTyped)
    | some d => ({ a with boxes := a.boxes ++ [some d] }, .box a.boxes.length)
  | .read i => match (a.boxes[i]?).join with
    | none => (a, .illTyped)
    | some d => (a, .data d)
  | .readStr i => match (a.boxes[i]?).join with
    | none => (a, .illTyped)
    | some d => (a, .data d)
  | .readNul i => match (a.boxes[i]?).join with
    | none => (a, .illTyped)
    | some d => (a, .data (d ++ [0]))
  | .eq i j => match (a.boxes[i]?).join, (a.boxes[j]?).join with
    | some d, some d' => (a, .bool (d == d'))
    | _, _ => (a, .illTyped)
  | .drop i => match (a.boxes[i]?).join with
    | none => (a, .illTyped)
    | some _ => ({ a with boxes := a.boxes.set i none }, .unit)
  | .intoVec i => match (a.boxes[i]?).join with
    | none => (a, .illTyped)
    | some d => (⟨a.boxes.set i none, a.bufs ++ [some d]⟩, .buf a.bufs.length)
  | .readBuf v => match (a.bufs[v]?).join with
    | none => (a, .illTyped)
    | some c => (a, .data c)
  | .dropBuf v => match (a.bufs[v]?).join with
    | none => (a, .illTyped)
    | some _ => ({ a with bufs := a.bufs.set v none }, .unit)

def Abs.run (a : Abs) : List Op → Abs × List Out
  | [] => (a, [])
  | o :: os => let (a1, x) := a.step o; let (a2, xs) := a1.run os; (a2, x :: xs)

end Verif.CharP
