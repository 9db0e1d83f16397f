import Verif.Bytes.Raw
/-! Heap lemmas: lookups, reference counts, reads. -/
namespace Verif.Bytes

/-- Regions are disjoint, non-null and below `next`. -/
structure HeapOk (h : List Alloc) (next : Nat) : Prop where
  sep : h.Pairwise (fun a b => a.base + a.data.length < b.base)
  lo : ∀ a ∈ h, 16 ≤ a.base
  hi : ∀ a ∈ h, a.base + a.data.length < next

/-- Same regions up to counts. -/
def Ext (h h' : List Alloc) : Prop :=
  ∀ a ∈ h, ∃ a' ∈ h', a'.base = a.base ∧ a'.data = a.data ∧ a'.kind = a.kind

theorem Ext.refl (h : List Alloc) : Ext h h := fun a ha => ⟨a, ha, rfl, rfl, rfl⟩

theorem Ext.trans {h h' h'' : List Alloc} (x : Ext h h') (y : Ext h' h'') : Ext h h'' := by
  intro a ha
  obtain ⟨b, hb, e1, e2, e3⟩ := x a ha
  obtain ⟨c, hc, f1, f2, f3⟩ := y b hb
  exact ⟨c, hc, f1.trans e1, f2.trans e2, f3.trans e3⟩

theorem Ext.append (h l : List Alloc) : Ext h (h ++ l) :=
  fun a ha => ⟨a, List.mem_append_left _ ha, rfl, rfl, rfl⟩

/-- Update the count at `b` by a function. -/
def upd (h : List Alloc) (b : Nat) (g : Nat → Nat) : List Alloc :=
  h.map (fun a => if a.base = b then { a with refs := g a.refs } else a)

theorem upd_ext (h : List Alloc) (b : Nat) (g : Nat → Nat) : Ext h (upd h b g) := by
  intro a ha
  refine ⟨_, List.mem_map.mpr ⟨a, ha, rfl⟩, ?_⟩
  split <;> simp

theorem ext_upd (h : List Alloc) (b : Nat) (g : Nat → Nat) : Ext (upd h b g) h := by
  intro a ha
  obtain ⟨a0, h0, rfl⟩ := List.mem_map.mp ha
  refine ⟨a0, h0, ?_⟩
  split <;> simp

theorem mem_upd {h : List Alloc} {b : Nat} {g : Nat → Nat} {a : Alloc} (ha : a ∈ upd h b g) :
    ∃ a0 ∈ h, a.base = a0.base ∧ a.data = a0.data ∧ a.kind = a0.kind
      ∧ a.refs = (if a0.base = b then g a0.refs else a0.refs) := by
  obtain ⟨a0, h0, rfl⟩ := List.mem_map.mp ha
  refine ⟨a0, h0, ?_⟩
  split <;> simp

theorem HeapOk.upd {h : List Alloc} {n : Nat} (H : HeapOk h n) (b : Nat) (g : Nat → Nat) :
    HeapOk (upd h b g) n := by
  constructor
  · unfold Bytes.upd
    rw [List.pairwise_map]
    refine H.sep.imp ?_
    intro a c hac
    split <;> split <;> simpa using hac
  · intro a ha
    obtain ⟨a0, h0, e1, _, _, _⟩ := mem_upd ha
    rw [e1]; exact H.lo a0 h0
  · intro a ha
    obtain ⟨a0, h0, e1, e2, _, _⟩ := mem_upd ha
    rw [e1, e2]; exact H.hi a0 h0

theorem HeapOk.append {h : List Alloc} {n : Nat} (H : HeapOk h n) (hn : 16 ≤ n) (d : List Byte) (k : Kind)
    (r m : Nat) (hm : n + d.length < m) : HeapOk (h ++ [⟨n, d, k, r⟩]) m := by
  constructor
  · rw [List.pairwise_append]
    refine ⟨H.sep, by simp, ?_⟩
    intro a ha b hb
    simp at hb; subst hb
    exact H.hi a ha
  · intro a ha
    rcases List.mem_append.mp ha with h1 | h1
    · exact H.lo a h1
    · simp at h1; subst h1; exact hn
  · intro a ha
    rcases List.mem_append.mp ha with h1 | h1
    · have := H.hi a h1; omega
    · simp at h1; subst h1; exact hm

/-- Regions with a common address are equal. -/
theorem HeapOk.uniq {h : List Alloc} {n : Nat} (H : HeapOk h n) {a b : Alloc} (ha : a ∈ h) (hb : b ∈ h)
    {x : Nat} (h1 : a.base ≤ x) (h2 : x ≤ a.base + a.data.length) (h3 : b.base ≤ x)
    (h4 : x ≤ b.base + b.data.length) : a = b := by
  have key : ∀ (l : List Alloc), l.Pairwise (fun a b => a.base + a.data.length < b.base) →
      a ∈ l → b ∈ l → a = b := by
    intro l hl
    induction l with
    | nil => intro h; cases h
    | cons c l ih =>
      rw [List.pairwise_cons] at hl
      intro ha hb
      rcases List.mem_cons.mp ha with e | ha'
      · rcases List.mem_cons.mp hb with e' | hb'
        · rw [e, e']
        · have := hl.1 b hb'; subst e; omega
      · rcases List.mem_cons.mp hb with e' | hb'
        · have := hl.1 a ha'; subst e'; omega
        · exact ih hl.2 ha' hb'
  exact key h H.sep ha hb

theorem HeapOk.uniqBase {h : List Alloc} {n : Nat} (H : HeapOk h n) {a b : Alloc} (ha : a ∈ h) (hb : b ∈ h)
    (e : a.base = b.base) : a = b :=
  H.uniq ha hb (x := a.base) (Nat.le_refl _) (by omega) (by omega) (by omega)

theorem HeapOk.findBase {h : List Alloc} {n : Nat} (H : HeapOk h n) {a : Alloc} (ha : a ∈ h) {b : Nat}
    (e : a.base = b) : findBase h b = some a := by
  unfold Bytes.findBase
  cases hf : h.find? (fun a => a.base == b) with
  | none =>
    rw [List.find?_eq_none] at hf
    exact absurd (hf a ha) (by simp [e])
  | some c =>
    have hc := List.mem_of_find?_eq_some hf
    have := List.find?_some hf
    simp at this
    rw [H.uniqBase hc ha (by omega)]

theorem findBase_mem {h : List Alloc} {b : Nat} {a : Alloc} (hf : findBase h b = some a) :
    a ∈ h ∧ a.base = b := by
  unfold findBase at hf
  refine ⟨List.mem_of_find?_eq_some hf, ?_⟩
  have := List.find?_some hf
  simpa using this

theorem setRefs_eq_upd {h : List Alloc} {n : Nat} (H : HeapOk h n) {a : Alloc} (ha : a ∈ h) (g : Nat → Nat) :
    setRefs h a.base (g a.refs) = upd h a.base g := by
  unfold setRefs upd
  apply List.map_congr_left
  intro c hc
  by_cases e : c.base = a.base
  · have := H.uniqBase hc ha e; subst this; simp
  · simp [e]

theorem readMem_ok {h : List Alloc} {n : Nat} (H : HeapOk h n) {a : Alloc} (ha : a ∈ h) (hl : 0 < a.refs)
    {st len : Nat} (h1 : a.base ≤ st) (h2 : st + len ≤ a.base + a.data.length) :
    readMem h st len = .ok ((a.data.drop (st - a.base)).take len) := by
  unfold readMem
  by_cases h0 : len = 0
  · simp [h0]
  · rw [if_neg h0]
    cases hf : h.find? (fun a => decide (0 < a.refs ∧ a.base ≤ st ∧ st + len ≤ a.base + a.data.length)) with
    | none =>
      rw [List.find?_eq_none] at hf
      exact absurd (hf a ha) (by simp [hl, h1, h2])
    | some c =>
      have hc := List.mem_of_find?_eq_some hf
      have h3 := List.find?_some hf
      simp only [decide_eq_true_eq] at h3
      have := H.uniq hc ha (x := st) h3.2.1 (by omega) h1 (by omega)
      subst this; rfl

end Verif.Bytes
