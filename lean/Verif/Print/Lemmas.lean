import Verif.Print.Model
import Verif.Print.Spec
import Verif.CharP.Text

/-! # Lemmas on escapes -/
namespace Verif.Print

theorem digit_ok : ∀ n : Fin 16, hexVal (digit n.1) = n.1 ∧ digit n.1 ≠ '}' ∧ 32 ≤ (digit n.1).toNat ∧ (digit n.1).toNat < 127 := by
  decide

theorem hexVal_digit {n : Nat} (h : n < 16) : hexVal (digit n) = n := (digit_ok ⟨n, h⟩).1

theorem hex_value (n : Nat) : (hexRev n).reverse.foldl (fun n c => 16 * n + hexVal c) 0 = n := by
  rw [List.foldl_reverse]
  induction n using hexRev.induct with
  | case1 n h => unfold hexRev; rw [if_pos h]; simp [hexVal_digit h]
  | case2 n h ih =>
    unfold hexRev; rw [if_neg h]
    simp only [List.foldr_cons]
    rw [ih, hexVal_digit (Nat.mod_lt _ (by decide))]
    omega

theorem hex_mem {n : Nat} {c : Char} (h : c ∈ hexRev n) : c ≠ '}' ∧ 32 ≤ c.toNat ∧ c.toNat < 127 := by
  induction n using hexRev.induct with
  | case1 n hn =>
    unfold hexRev at h; rw [if_pos hn] at h
    simp only [List.mem_singleton] at h
    rw [h]; exact (digit_ok ⟨n, hn⟩).2
  | case2 n hn ih =>
    unfold hexRev at h; rw [if_neg hn] at h
    rcases List.mem_cons.1 h with h | h
    · rw [h]; exact (digit_ok ⟨n % 16, Nat.mod_lt _ (by decide)⟩).2
    · exact ih h

theorem span_brace {l : Text} (h : ∀ c ∈ l, c ≠ '}') (r : Text) :
    (l ++ '}' :: r).takeWhile (· ≠ '}') = l ∧ (l ++ '}' :: r).dropWhile (· ≠ '}') = '}' :: r := by
  induction l with
  | nil => simp
  | cons a l ih =>
    have ha := h a (by simp)
    have := ih (fun c hc => h c (by simp [hc]))
    simp only [List.cons_append, List.takeWhile_cons, List.dropWhile_cons, ha, ne_eq, not_false_eq_true, decide_true, if_true]
    exact ⟨by rw [this.1], this.2⟩

theorem unescape_esc (P : Prims) (c : Char) (r : Text) : unescape (esc P c ++ r) = some (c, r) := by
  unfold esc
  split
  · rename_i h; subst h; rfl
  split
  · rename_i h; subst h; rfl
  split
  · rename_i h; subst h; rfl
  split
  · rename_i h; subst h; rfl
  split
  · rename_i h; subst h; rfl
  split
  · rename_i h; subst h; rfl
  rename_i h1 h2
  split
  · simp only [List.cons_append, List.nil_append]
    unfold unescape
    split <;> rename_i e <;> first
      | (cases e; exact absurd rfl h1)
      | (cases e; exact absurd rfl h2)
      | (cases e; rfl)
      | cases e
  · simp only [List.append_assoc, List.cons_append, List.nil_append, unescape]
    have := span_brace (l := (hexRev c.toNat).reverse) (fun x hx => (hex_mem (List.mem_reverse.1 hx)).1) r
    rw [this.1, this.2, hex_value]
    simp

theorem esc_ne (P : Prims) (c : Char) : ∃ a t, esc P c = a :: t ∧ a ≠ '"' := by
  unfold esc
  repeat' split
  all_goals first
    | exact ⟨_, _, rfl, by decide⟩
    | (refine ⟨_, _, rfl, ?_⟩; assumption)

theorem literalRest_esc (P : Prims) (s : Text) {n : Nat} (h : s.length < n) :
    literalRest n (s.flatMap (esc P) ++ ['"']) = some s := by
  induction s generalizing n with
  | nil =>
    cases n with
    | zero => simp at h
    | succ n => simp [literalRest]
  | cons c s ih =>
    cases n with
    | zero => simp at h
    | succ n =>
      have hn : s.length < n := by simpa using h
      simp only [List.flatMap_cons, List.append_assoc, literalRest, unescape_esc, ih hn, Option.map_some]
      rw [if_neg]
      obtain ⟨a, t, e, ha⟩ := esc_ne P c
      rw [e]
      intro x
      simp only [List.cons_append, List.cons.injEq] at x
      exact ha x.1

theorem length_flatMap_esc (P : Prims) (s : Text) : s.length ≤ (s.flatMap (esc P)).length := by
  induction s with
  | nil => simp
  | cons c s ih =>
    obtain ⟨a, t, e, _⟩ := esc_ne P c
    simp only [List.flatMap_cons, List.length_append, List.length_cons, e]
    omega

theorem literal_debug (P : Prims) (o : Opts) (s : Text) : literal (strDebug P o s) = some s := by
  simp only [strDebug, literal]
  apply literalRest_esc
  have := length_flatMap_esc P s
  simp only [List.length_append, List.length_singleton]
  omega

theorem esc_mem {P : Prims} {c x : Char} (h : x ∈ esc P c) :
    x ≠ '\n' ∧ x ≠ '\r' ∧ (P.plain x = true ∨ (32 ≤ x.toNat ∧ x.toNat < 127)) := by
  have ascii : ∀ y : Char, 32 ≤ y.toNat ∧ y.toNat < 127 →
      y ≠ '\n' ∧ y ≠ '\r' ∧ (P.plain y = true ∨ (32 ≤ y.toNat ∧ y.toNat < 127)) := by
    intro y hy
    refine ⟨?_, ?_, .inr hy⟩ <;> (intro e; subst e; revert hy; decide)
  unfold esc at h
  split at h
  · refine ascii _ ?_
    simp only [List.mem_cons, List.not_mem_nil, or_false] at h
    rcases h with rfl | rfl <;> decide
  split at h
  · refine ascii _ ?_
    simp only [List.mem_cons, List.not_mem_nil, or_false] at h
    rcases h with rfl | rfl <;> decide
  split at h
  · refine ascii _ ?_
    simp only [List.mem_cons, List.not_mem_nil, or_false] at h
    rcases h with rfl | rfl <;> decide
  split at h
  · refine ascii _ ?_
    simp only [List.mem_cons, List.not_mem_nil, or_false] at h
    rcases h with rfl | rfl <;> decide
  split at h
  · refine ascii _ ?_
    simp only [List.mem_cons, List.not_mem_nil, or_false] at h
    rcases h with rfl | rfl <;> decide
  split at h
  · refine ascii _ ?_
    simp only [List.mem_cons, List.not_mem_nil, or_false] at h
    rcases h with rfl | rfl <;> decide
  rename_i h1 h2 h3 h4
  split at h
  · rename_i hp
    simp only [List.mem_singleton] at h
    subst h
    exact ⟨by assumption, by assumption, .inl hp⟩
  · simp only [List.cons_append, List.nil_append, List.mem_cons, List.mem_append, List.mem_reverse, List.not_mem_nil, or_false] at h
    rcases h with rfl | rfl | rfl | h | rfl
    · exact ascii _ (by decide)
    · exact ascii _ (by decide)
    · exact ascii _ (by decide)
    · exact ascii _ (hex_mem h).2
    · exact ascii _ (by decide)

theorem debug_mem {P : Prims} {o : Opts} {s : Text} {x : Char} (h : x ∈ strDebug P o s) :
    x ≠ '\n' ∧ x ≠ '\r' ∧ (P.plain x = true ∨ (32 ≤ x.toNat ∧ x.toNat < 127)) := by
  simp only [strDebug, List.mem_cons, List.mem_append, List.mem_flatMap, List.not_mem_nil, or_false] at h
  rcases h with rfl | ⟨c, _, h⟩ | rfl
  · exact ⟨by decide, by decide, .inr (by decide)⟩
  · exact esc_mem h
  · exact ⟨by decide, by decide, .inr (by decide)⟩

theorem chars_utf8 (cs : List Char) : chars (CharP.utf8 cs) = cs := by
  have h : ByteArray.mk (CharP.utf8 cs).toArray = cs.utf8Encode := CharP.toArray_toByteArray _
  simp only [chars, h, List.utf8Decode?_utf8Encode]
  simp

end Verif.Print
