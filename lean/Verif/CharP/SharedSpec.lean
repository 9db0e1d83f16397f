import Verif.CharP.Shared

/-! # Specification of shared C strings: strings as plain values -/
namespace Verif.CharP.Shared

structure Abs where
  shared : List (Option Bytes)
  arcs : List (Option Bytes)

def Abs.init : Abs := ⟨[], []⟩

def Abs.step (a : Abs) : Op → Abs × Out
  | .fromStr cs =>
    if '\x00' ∈ cs then (a, .panic)
    else ({ a with shared := a.shared ++ [some (utf8 cs)] }, .shared a.shared.length)
  | .fromCString c =>
    if 0 ∈ c then (a, .illTyped)
    else if validUtf8 c then ({ a with shared := a.shared ++ [some c] }, .shared a.shared.length)
    else (a, .panic)
  | .arcNew c =>
    if 0 ∈ c then (a, .illTyped)
    else ({ a with arcs := a.arcs ++ [some c] }, .arc a.arcs.length)
  | .arcClone j => match (a.arcs[j]?).join with
    | none => (a, .illTyped)
    | some c => ({ a with arcs := a.arcs ++ [some c] }, .arc a.arcs.length)
  | .arcDrop j => match (a.arcs[j]?).join with
    | none => (a, .illTyped)
    | some _ => ({ a with arcs := a.arcs.set j none }, .unit)
  | .fromArc j => match (a.arcs[j]?).join with
    | none => (a, .illTyped)
    | some c =>
      if validUtf8 c then (⟨a.shared ++ [some c], a.arcs.set j none⟩, .shared a.shared.length)
      else ({ a with arcs := a.arcs.set j none }, .panic)
  | .clone i => match (a.shared[i]?).join with
    | none => (a, .illTyped)
    | some c => ({ a with shared := a.shared ++ [some c] }, .shared a.shared.length)
  | .drop i => match (a.shared[i]?).join with
    | none => (a, .illTyped)
    | some _ => ({ a with shared := a.shared.set i none }, .unit)
  | .deref i => match (a.shared[i]?).join with
    | none => (a, .illTyped)
    | some c => (a, .str c)

def Abs.run (a : Abs) : List Op → Abs × List Out
  | [] => (a, [])
  | o :: os => let (a1, x) := a.step o; let (a2, xs) := a1.run os; (a2, x :: xs)

end Verif.CharP.Shared
