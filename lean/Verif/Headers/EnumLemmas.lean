import Verif.Headers.EnumSpec
import Verif.Headers.DocsProps
import Verif.Headers.FnProps
import Verif.Headers.TypeNames
/-! # Lemmas for C45 -/
namespace Verif.Headers
open Text

/-! ### Integers -/

theorem fold_digits (n : Nat) : (Nat.toDigits 10 n).foldl (fun n c => n * 10 + (c.toNat - 48)) 0 = n := by
  induction n using Nat.strongRecOn with
  | ind n ih =>
    by_cases h : n < 10
    · rw [Nat.toDigits_of_lt_base h]
      have := Nat.toNat_digitChar_of_lt_ten h
      simp [this]
    · rw [Nat.toDigits_of_base_le (by omega) (by omega), List.foldl_append, ih _ (by omega)]
      have := Nat.toNat_digitChar_of_lt_ten (Nat.mod_lt n (by omega : 10 > 0))
      simp [this]
      omega

theorem readNat_repr (n : Nat) : readNat n.repr.toList = some n := by
  have h1 : n.repr.toList ≠ [] := nat_ne_nil n
  have h2 : n.repr.toList.all Char.isDigit = true := List.all_eq_true.2 (nat_digits n)
  rw [readNat, if_pos ⟨h1, h2⟩, Nat.toList_repr, fold_digits]

theorem readInt_intText (v : Int) : readInt (intText v) = some v := by
  cases v with
  | ofNat n =>
    have e : intText (Int.ofNat n) = n.repr.toList := rfl
    have hd := nat_digits n
    have hr := readNat_repr n
    rw [e]
    show readInt n.repr.toList = _
    cases hs : n.repr.toList with
    | nil => exact absurd hs (nat_ne_nil n)
    | cons c cs =>
      have hc : c ≠ '-' := by
        rintro rfl
        have := hd '-' (by show '-' ∈ n.repr.toList; rw [hs]; simp)
        revert this; decide
      rw [hs] at hr
      rw [readInt]
      · rw [hr]; rfl
      · intro s h; exact hc (List.cons.inj h).1
  | negSucc n =>
    have e : intText (Int.negSucc n) = '-' :: (n + 1).repr.toList := by
      show ("-" ++ (n + 1).repr).toList = _
      rw [String.toList_append]; rfl
    rw [e, readInt, readNat_repr]
    rfl

theorem intText_chars (v : Int) : ∀ c ∈ intText v, c.isDigit = true ∨ c = '-' := by
  cases v with
  | ofNat n => exact fun c hc => .inl (nat_digits n c hc)
  | negSucc n =>
    have e : intText (Int.negSucc n) = '-' :: (n + 1).repr.toList := by
      show ("-" ++ (n + 1).repr).toList = _
      rw [String.toList_append]; rfl
    rw [e]
    intro c hc
    rcases List.mem_cons.1 hc with rfl | hc
    · exact .inr rfl
    · exact .inl (nat_digits (n + 1) c hc)

theorem intText_ne_nil (v : Int) : intText v ≠ [] := by
  intro h
  have := readInt_intText v
  rw [h] at this
  cases this

/-- A value as it is written. -/
def IsValue (d : Text) : Prop := d ≠ [] ∧ ∀ c ∈ d, c.isDigit = true ∨ c = '-'

theorem isDigit_word {c : Char} (h : c.isDigit = true) : isWordChar c = true := by
  simp [isWordChar, Char.isAlphanum, h]

theorem isWs_digit {c : Char} (h : c.isDigit = true ∨ c = '-') : isWs c = false := by
  rcases h with h | rfl
  · cases hw : isWs c with
    | false => rfl
    | true => have := isDigit_word h; rw [isWs_not_word hw] at this; cases this
  · decide

theorem IsValue.not_mem {d : Text} (h : IsValue d) {c : Char} (h1 : c.isDigit = false) (h2 : c ≠ '-') : c ∉ d := by
  intro hc
  rcases h.2 c hc with h' | h'
  · rw [h'] at h1; cases h1
  · exact h2 h'

/-! ### White space -/

def Ws (s : Text) : Prop := ∀ c ∈ s, isWs c = true

instance (s : Text) : Decidable (Ws s) := inferInstanceAs (Decidable (∀ _ ∈ _, _))

theorem Ws.nil : Ws [] := nofun

theorem Ws.append {a c : Text} (h : Ws a) (h' : Ws c) : Ws (a ++ c) := fun x hx => (List.mem_append.1 hx).elim (h x) (h' x)

theorem Ws.not_mem {s : Text} (h : Ws s) {c : Char} (hc : isWs c = false) : c ∉ s := fun hm => by rw [h c hm] at hc; cases hc

theorem ws_indent (d : Nat) : Ws (indent d) := fun c hc => by
  have := (List.mem_replicate.1 hc).2
  rw [this]; decide

theorem trimStart_ws {w : Text} (h : Ws w) (s : Text) : trimStart (w ++ s) = trimStart s := by
  induction w with
  | nil => rfl
  | cons c cs ih =>
    have := h c (by simp)
    rw [List.cons_append, trimStart, List.dropWhile_cons, if_pos this]
    exact ih fun x hx => h x (List.mem_cons_of_mem _ hx)

theorem trimEnd_ws_append {w : Text} (h : Ws w) (s : Text) : trimEnd (s ++ w) = trimEnd s := by
  induction w generalizing s with
  | nil => rw [List.append_nil]
  | cons c cs ih =>
    have e : s ++ c :: cs = (s ++ [c]) ++ cs := by simp
    rw [e, ih fun x hx => h x (List.mem_cons_of_mem _ hx), trimEnd_ws (h c (by simp))]

theorem trim_visible {s : Text} (h : ∀ c ∈ s, isWs c = false) : trim s = s := by
  have h1 : trimStart s = s := by
    cases s with
    | nil => rfl
    | cons c cs => rw [trimStart, List.dropWhile_cons, if_neg (by simp [h c (by simp)])]
  rw [trim, h1]
  exact trimEnd_eq fun c hc => h c (List.mem_of_getLast? hc)

theorem trim_pad {w s w' : Text} (h : Ws w) (h' : Ws w') (hs : ∀ c ∈ s, isWs c = false) : trim (w ++ s ++ w') = s := by
  cases s with
  | nil =>
    rw [List.append_nil, trim]
    have : trimStart (w ++ w') = [] := by
      have := trimStart_ws (h.append h') []
      simpa [trimStart] using this
    rw [this]; rfl
  | cons c cs =>
    rw [trim, List.append_assoc, trimStart_ws h]
    have : trimStart (c :: cs ++ w') = c :: cs ++ w' := by
      rw [trimStart, List.cons_append, List.dropWhile_cons, if_neg (by simp [hs c (by simp)])]
    rw [this, trimEnd_ws_append h']
    exact trimEnd_eq fun x hx => hs x (List.mem_of_getLast? hx)

theorem IsWord.visible {s : Text} (h : IsWord s) : ∀ c ∈ s, isWs c = false := fun c hc => by
  cases hw : isWs c with
  | false => rfl
  | true => have := h.2 c hc; rw [isWs_not_word hw] at this; cases this

theorem IsWord.not_mem {s : Text} (h : IsWord s) {c : Char} (hc : isWordChar c = false) : c ∉ s := fun hm => by
  rw [h.2 c hm] at hc; cases hc

/-! ### Comments -/

theorem code_plain {s : Text} (h : '/' ∉ s) (r : Text) : code .code (s ++ r) = s ++ code .code r := by
  induction s with
  | nil => rfl
  | cons c cs ih =>
    simp only [List.mem_cons, not_or] at h
    rw [List.cons_append, code]
    · rw [ih h.2]; rfl
    · intro _ e; exact absurd e.symm h.1
    · intro _ e; exact absurd e.symm h.1

/-! ### The body of an enum -/

/-- The body of an enum without its comments: white space, then a line, for each enumerator. -/
inductive Body : List (Text × Option Text) → Text → Prop
  | nil : Body [] []
  | cons {n d vs w s} : Ws w → Body vs s → Body ((n, d) :: vs) (w ++ enumLine n d ++ '\n' :: s)

/-- A line, without its comma. -/
def enumPiece (name : Text) (disc : Option Text) : Text :=
  match disc with
  | some d => name ++ ' ' :: '=' :: ' ' :: d
  | none => name

theorem enumLine_eq (n : Text) (d : Option Text) : enumLine n d = enumPiece n d ++ [','] := by
  cases d <;> simp [enumLine, enumPiece]

theorem enumPiece_not_mem {n : Text} {d : Option Text} (hn : IsWord n) (hd : ∀ x, d = some x → IsValue x) {c : Char}
    (h1 : isWordChar c = false) (h2 : c ≠ '-') (h3 : c ≠ ' ') (h4 : c ≠ '=') : c ∉ enumPiece n d := by
  have h5 : c ∉ n := hn.not_mem h1
  cases d with
  | none => exact h5
  | some d =>
    have h6 : c ∉ d := (hd d rfl).not_mem (by
      cases h : c.isDigit with
      | false => rfl
      | true => rw [isDigit_word h] at h1; cases h1) h2
    simp only [enumPiece, List.mem_append, List.mem_cons, not_or]
    exact ⟨h5, h3, h4, h3, h6⟩

/-- What a line says. -/
def lineValue : Text × Option Text → Option (Text × Option Int)
  | (n, none) => some (n, none)
  | (n, some d) => (readInt d).map fun v => (n, some v)

theorem enumerator_piece {n : Text} {d : Option Text} (hn : IsWord n) (hd : ∀ x, d = some x → IsValue x) {w : Text} (hw : Ws w) :
    enumerator (w ++ enumPiece n d) = lineValue (n, d) := by
  have hne : '=' ∉ n := hn.not_mem (by decide)
  have hwe : '=' ∉ w := hw.not_mem (by decide)
  cases d with
  | none =>
    rw [enumPiece, enumerator, splitOnce_none (by simp [hwe, hne])]
    have := trim_pad hw Ws.nil hn.visible
    rw [List.append_nil] at this
    rw [this]; rfl
  | some d =>
    have hv := hd d rfl
    have e : w ++ enumPiece n (some d) = (w ++ n ++ [' ']) ++ '=' :: (' ' :: d) := by simp [enumPiece]
    have h1 : '=' ∉ w ++ n ++ [' '] := by simp [hwe, hne]
    rw [e, enumerator, splitOnce_append h1]
    have h2 : trim (w ++ n ++ [' ']) = n := trim_pad hw (by decide) hn.visible
    have h3 : trim (' ' :: d) = d := by
      have := trim_pad (w := [' ']) (s := d) (w' := []) (by decide) Ws.nil (fun c hc => isWs_digit (hv.2 c hc))
      simpa using this
    simp only [h2, h3]; rfl

def lineOk (x : Text × Option Text) : Prop := IsWord x.1 ∧ ∀ d, x.2 = some d → IsValue d

theorem body_split {vs : List (Text × Option Text)} {s : Text} (h : Body vs s) (hv : ∀ x ∈ vs, lineOk x) (w : Text) (hw : Ws w) :
    trim ((split ',' (w ++ s)).getLastD []) = [] ∧
      (split ',' (w ++ s)).dropLast.mapM enumerator = vs.mapM lineValue := by
  induction h generalizing w with
  | nil =>
    have hc : ',' ∉ w ++ [] := by rw [List.append_nil]; exact hw.not_mem (by decide)
    rw [split_of_not_mem hc]
    refine ⟨?_, rfl⟩
    have := trim_pad hw Ws.nil (s := []) nofun
    simpa using this
  | @cons n d vs w' s hw' hb ih =>
    have hx := hv (n, d) (by simp)
    obtain ⟨ih1, ih2⟩ := ih (fun x hx => hv x (List.mem_cons_of_mem _ hx)) ['\n'] (by decide)
    have e : w ++ (w' ++ enumLine n d ++ '\n' :: s) = (w ++ w' ++ enumPiece n d) ++ ',' :: (['\n'] ++ s) := by
      rw [enumLine_eq]; simp
    have hc : ',' ∉ w ++ w' ++ enumPiece n d := by
      have h1 := hw.not_mem (c := ',') (by decide)
      have h2 := hw'.not_mem (c := ',') (by decide)
      have h3 := enumPiece_not_mem (c := ',') hx.1 hx.2 (by decide) (by decide) (by decide) (by decide)
      simp [h1, h2, h3]
    rw [e, split_append hc]
    have hne := split_ne_nil ',' (['\n'] ++ s)
    refine ⟨?_, ?_⟩
    · revert ih1
      rw [List.getLastD_cons]
      cases hs : split ',' (['\n'] ++ s) with
      | nil => exact absurd hs hne
      | cons p ps => exact id
    · rw [List.dropLast_cons_of_ne_nil hne, List.mapM_cons, List.mapM_cons, ih2, enumerator_piece hx.1 hx.2 (hw.append hw')]

theorem body_no_brace {vs : List (Text × Option Text)} {s : Text} (h : Body vs s) (hv : ∀ x ∈ vs, lineOk x) : '}' ∉ s := by
  induction h with
  | nil => exact nofun
  | @cons n d vs w s hw hb ih =>
    have hx := hv (n, d) (by simp)
    have h1 := hw.not_mem (c := '}') (by decide)
    have h3 := enumPiece_not_mem (c := '}') hx.1 hx.2 (by decide) (by decide) (by decide) (by decide)
    have h4 := ih fun x hx => hv x (List.mem_cons_of_mem _ hx)
    rw [enumLine_eq]
    simp [h1, h3, h4]

/-- What the reader makes of a header with this body. -/
theorem enumerators_body {vs : List (Text × Option Text)} {s pre text post : Text} (hb : Body vs s) (hv : ∀ x ∈ vs, lineOk x)
    (hp : '{' ∉ pre) (hc : code .code text = pre ++ '{' :: '\n' :: (s ++ '}' :: post)) :
    enumerators text = vs.mapM lineValue := by
  have h0 : '}' ∉ ['\n'] ++ s := by simp [body_no_brace hb hv]
  have e : '\n' :: (s ++ '}' :: post) = (['\n'] ++ s) ++ '}' :: post := by simp
  obtain ⟨h1, h2⟩ := body_split hb hv ['\n'] (by decide)
  rw [enumerators, hc, splitOnce_append hp, e]
  simp only
  rw [splitOnce_append h0]
  simp only
  rw [if_pos h1, h2]

/-! ### Values of expressions -/

theorem two_pow_half {w : Nat} (h : 0 < w) : (2 : Int) ^ w = 2 * 2 ^ (w - 1) ∧ 0 < (2 : Int) ^ (w - 1) := by
  obtain ⟨n, rfl⟩ : ∃ n, w = n + 1 := ⟨w - 1, by omega⟩
  refine ⟨by rw [Nat.add_sub_cancel, Int.pow_succ, Int.mul_comm], ?_⟩
  exact Int.pow_pos (by decide)

theorem toNat_lt_int {w : Nat} (x : BitVec w) : (x.toNat : Int) < 2 ^ w := by
  have := x.isLt
  exact_mod_cast this

/-- The number, from the unsigned one. -/
theorem IntTy.read_eq {W : Nat} {k : IntTy} (x : BitVec (k.bits W)) :
    k.read W x = if k.signed = true ∧ (2 : Int) ^ k.bits W ≤ 2 * (x.toNat : Int) then (x.toNat : Int) - 2 ^ k.bits W else x.toNat := by
  unfold IntTy.read
  by_cases hs : k.signed = true
  · rw [if_pos hs, BitVec.toInt_eq_toNat_cond]
    have e : ((2 ^ k.bits W : Nat) : Int) = 2 ^ k.bits W := by simp
    by_cases hx : 2 * x.toNat < 2 ^ k.bits W
    · have : (2 * (x.toNat : Int)) < 2 ^ k.bits W := by exact_mod_cast hx
      rw [if_pos hx, if_neg (by omega)]
    · have : ¬ (2 * (x.toNat : Int)) < 2 ^ k.bits W := by exact_mod_cast hx
      rw [if_neg hx, if_pos ⟨hs, by omega⟩, e]
  · rw [if_neg hs, if_neg (by simp [hs])]

theorem IntTy.read_wrap {W : Nat} {k : IntTy} (h : 0 < k.bits W) {x : BitVec (k.bits W)} {z : Int}
    (hx : (x.toNat : Int) = z % 2 ^ k.bits W) : k.read W x = k.wrap W z := by
  have ⟨e, p⟩ := two_pow_half h
  rw [read_eq, IntTy.wrap, hx]
  simp only [Bool.and_eq_true, decide_eq_true_eq]
  by_cases hs : k.signed = true
  · by_cases hz : (2 : Int) ^ (k.bits W - 1) ≤ z % 2 ^ k.bits W
    · rw [if_pos ⟨hs, by omega⟩, if_pos ⟨hs, hz⟩]
    · rw [if_neg (by rintro ⟨_, h⟩; omega), if_neg (by rintro ⟨_, h⟩; omega)]
  · rw [if_neg (by simp [hs]), if_neg (by simp [hs])]

theorem IntTy.read_inj {W : Nat} {k : IntTy} {x y : BitVec (k.bits W)} (h : k.read W x = k.read W y) : x = y := by
  unfold IntTy.read at h
  split at h
  · exact BitVec.toInt_inj.1 h
  · exact BitVec.eq_of_toNat_eq (by omega)

theorem IntTy.has_iff {W : Nat} {k : IntTy} (h : 0 < k.bits W) (v : Int) : k.has W v = true ↔ ∃ x, k.read W x = v := by
  have ⟨e, p⟩ := two_pow_half h
  constructor
  · intro hv
    refine ⟨BitVec.ofInt _ v, ?_⟩
    have hx : ((BitVec.ofInt (k.bits W) v).toNat : Int) = v % 2 ^ k.bits W := by
      rw [BitVec.toNat_ofInt]
      have e2 : ((2 ^ k.bits W : Nat) : Int) = 2 ^ k.bits W := by simp
      rw [e2]
      have := Int.emod_nonneg v (b := 2 ^ k.bits W) (by omega)
      omega
    rw [read_eq, hx]
    unfold IntTy.has at hv
    by_cases hs : k.signed = true
    · rw [if_pos hs, decide_eq_true_eq] at hv
      by_cases h0 : 0 ≤ v
      · rw [Int.emod_eq_of_lt h0 (by omega), if_neg (by omega)]
      · have : v % 2 ^ k.bits W = v + 2 ^ k.bits W := by
          rw [← Int.add_emod_right, Int.emod_eq_of_lt (by omega) (by omega)]
        rw [this, if_pos ⟨hs, by omega⟩]; omega
    · rw [if_neg hs, decide_eq_true_eq] at hv
      rw [Int.emod_eq_of_lt hv.1 hv.2, if_neg (by simp [hs])]
  · rintro ⟨x, rfl⟩
    have := toNat_lt_int x
    rw [read_eq]
    unfold IntTy.has
    by_cases hs : k.signed = true
    · rw [if_pos hs, decide_eq_true_eq]
      simp only [hs, true_and]
      split <;> omega
    · rw [if_neg hs, decide_eq_true_eq, if_neg (by simp [hs])]
      omega

theorem IntTy.read_not {W : Nat} {k : IntTy} (h : 0 < k.bits W) (x : BitVec (k.bits W)) :
    k.read W (~~~x) = if k.signed then - k.read W x - 1 else 2 ^ k.bits W - 1 - k.read W x := by
  have ⟨e, p⟩ := two_pow_half h
  have hl := toNat_lt_int x
  have hn : ((~~~x).toNat : Int) = 2 ^ k.bits W - 1 - x.toNat := by
    rw [BitVec.toNat_not]
    have := x.isLt
    have e2 : ((2 ^ k.bits W : Nat) : Int) = 2 ^ k.bits W := by simp
    omega
  rw [read_eq, read_eq, hn]
  by_cases hs : k.signed = true
  · simp only [hs, true_and, if_true]
    split <;> split <;> omega
  · simp [hs]

theorem IntTy.read_shl {W : Nat} {k : IntTy} (h : 0 < k.bits W) (x : BitVec (k.bits W)) (n : Nat) :
    k.read W (x <<< n) = k.wrap W (k.read W x * 2 ^ n) := by
  apply read_wrap h
  rw [BitVec.toNat_shiftLeft, Nat.shiftLeft_eq]
  have e2 : ((x.toNat * 2 ^ n % 2 ^ k.bits W : Nat) : Int) = (x.toNat : Int) * 2 ^ n % 2 ^ k.bits W := by simp
  rw [e2, read_eq]
  split
  · rw [Int.sub_mul, Int.sub_mul_emod_self_left]
  · rfl

theorem checked_iff {W : Nat} {k : IntTy} (h : 0 < k.bits W) {v y : Int} :
    Ex.checked W k v = some y ↔ ∃ x, k.read W x = v ∧ k.read W x = y := by
  unfold Ex.checked
  by_cases hv : k.has W v = true
  · rw [if_pos hv]
    obtain ⟨x, hx⟩ := (IntTy.has_iff h v).1 hv
    constructor
    · intro e; cases e; exact ⟨x, hx, hx⟩
    · rintro ⟨z, h1, h2⟩; rw [← h1, h2]
  · rw [if_neg hv]
    constructor
    · nofun
    · rintro ⟨x, h1, _⟩; exact absurd ((IntTy.has_iff h v).2 ⟨x, h1⟩) hv

end Verif.Headers
