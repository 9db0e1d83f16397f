/-!
# Texts

Rust's `str` as a list of characters, and the methods of `str` that the code uses.
-/
namespace Verif

abbrev Text := List Char

namespace Text

/-- `char::is_whitespace`: Unicode's `White_Space`. -/
def isWs (c : Char) : Bool :=
  let n := c.toNat
  (9 ≤ n && n ≤ 13) || n == 32 || n == 0x85 || n == 0xA0 || n == 0x1680 || (0x2000 ≤ n && n ≤ 0x200A) ||
  n == 0x2028 || n == 0x2029 || n == 0x202F || n == 0x205F || n == 0x3000

/-- `str::trim_start` -/
def trimStart (s : Text) : Text := s.dropWhile isWs

/-- `str::trim_end` -/
def trimEnd (s : Text) : Text := (s.reverse.dropWhile isWs).reverse

/-- `str::trim` -/
def trim (s : Text) : Text := trimEnd (trimStart s)

/-- `str::split(c)`: one more piece than there are separators. -/
def split (c : Char) : Text → List Text
  | [] => [[]]
  | x :: xs =>
      if x = c then [] :: split c xs
      else match split c xs with
        | p :: ps => (x :: p) :: ps
        | [] => [[x]]

/-- `str::split_once(c)`: at the first occurrence. -/
def splitOnce (c : Char) : Text → Option (Text × Text)
  | [] => none
  | x :: xs =>
      if x = c then some ([], xs)
      else (splitOnce c xs).map fun (l, r) => (x :: l, r)

/-- `str::rsplit_once(c)`: at the last occurrence. -/
def rsplitOnce (c : Char) (s : Text) : Option (Text × Text) :=
  (splitOnce c s.reverse).map fun (r, l) => (l.reverse, r.reverse)

/-- `str::strip_prefix` of a character -/
def stripPrefix (c : Char) : Text → Option Text
  | x :: xs => if x = c then some xs else none
  | [] => none

/-- `str::strip_prefix` of a string -/
def stripPrefixStr : Text → Text → Option Text
  | [], s => some s
  | _ :: _, [] => none
  | p :: ps, x :: xs => if x = p then stripPrefixStr ps xs else none

/-- `str::strip_suffix` of a character -/
def stripSuffix (c : Char) (s : Text) : Option Text := (stripPrefix c s.reverse).map List.reverse

/-- `char::is_ascii_uppercase` -/
def isAsciiUpper (c : Char) : Bool := 'A' ≤ c && c ≤ 'Z'

/-- `char::is_ascii_lowercase` -/
def isAsciiLower (c : Char) : Bool := 'a' ≤ c && c ≤ 'z'

/-- `char::to_ascii_uppercase` -/
def toAsciiUpper (c : Char) : Char := if isAsciiLower c then Char.ofNat (c.toNat - 32) else c

/-- The separator in front of a name: `if var_name.is_empty() { "" } else { " " }`. -/
def sep (s : Text) : Text := if s.isEmpty then [] else [' ']

/-! ### Lemmas -/

theorem splitOnce_none {c : Char} {s : Text} (h : c ∉ s) : splitOnce c s = none := by
  induction s with
  | nil => rfl
  | cons x xs ih =>
    simp only [List.mem_cons, not_or] at h
    rw [splitOnce, if_neg (fun e => h.1 e.symm), ih h.2]; rfl

theorem splitOnce_append {c : Char} {l r : Text} (h : c ∉ l) : splitOnce c (l ++ c :: r) = some (l, r) := by
  induction l with
  | nil => simp [splitOnce]
  | cons x xs ih =>
    simp only [List.mem_cons, not_or] at h
    rw [List.cons_append, splitOnce, if_neg (fun e => h.1 e.symm), ih h.2]; rfl

theorem rsplitOnce_append {c : Char} {l r : Text} (h : c ∉ r) : rsplitOnce c (l ++ c :: r) = some (l, r) := by
  have : (l ++ c :: r).reverse = r.reverse ++ c :: l.reverse := by simp
  rw [rsplitOnce, this, splitOnce_append (by simpa using h)]
  simp

theorem rsplitOnce_none {c : Char} {s : Text} (h : c ∉ s) : rsplitOnce c s = none := by
  rw [rsplitOnce, splitOnce_none (by simpa using h)]; rfl

theorem stripSuffix_append (c : Char) (s : Text) : stripSuffix c (s ++ [c]) = some s := by
  simp [stripSuffix, stripPrefix]

theorem split_ne_nil (c : Char) (s : Text) : split c s ≠ [] := by
  cases s with
  | nil => simp [split]
  | cons x xs => rw [split]; split <;> (try split) <;> simp

theorem split_of_not_mem {c : Char} {s : Text} (h : c ∉ s) : split c s = [s] := by
  induction s with
  | nil => rfl
  | cons x xs ih =>
    simp only [List.mem_cons, not_or] at h
    rw [split, if_neg (fun e => h.1 e.symm), ih h.2]

theorem split_append {c : Char} {l r : Text} (h : c ∉ l) : split c (l ++ c :: r) = l :: split c r := by
  induction l with
  | nil => simp [split]
  | cons x xs ih =>
    simp only [List.mem_cons, not_or] at h
    rw [List.cons_append, split, if_neg (fun e => h.1 e.symm), ih h.2]

/-- Neither the first nor the last character is white space. -/
def Trimmed (s : Text) : Prop := (∀ c, s.head? = some c → isWs c = false) ∧ (∀ c, s.getLast? = some c → isWs c = false)

instance (s : Text) : Decidable (Trimmed s) :=
  decidable_of_iff ((s.head?.all fun c => !isWs c) = true ∧ (s.getLast?.all fun c => !isWs c) = true) (by
    cases h1 : s.head? <;> cases h2 : s.getLast? <;> simp [Trimmed, h1, h2])

theorem trimStart_eq {s : Text} (h : ∀ c, s.head? = some c → isWs c = false) : trimStart s = s := by
  cases s with
  | nil => rfl
  | cons x xs => simp [trimStart, h x rfl]

theorem trimEnd_eq {s : Text} (h : ∀ c, s.getLast? = some c → isWs c = false) : trimEnd s = s := by
  have : s.reverse.dropWhile isWs = s.reverse := by
    apply trimStart_eq
    intro c hc
    exact h c (by simpa using hc)
  rw [trimEnd, this, List.reverse_reverse]

theorem trim_eq {s : Text} (h : Trimmed s) : trim s = s := by
  rw [trim, trimStart_eq h.1, trimEnd_eq h.2]

theorem trim_space (s : Text) : trim (' ' :: s) = trim s := by
  simp [trim, trimStart, show isWs ' ' = true by decide]

end Text
end Verif
