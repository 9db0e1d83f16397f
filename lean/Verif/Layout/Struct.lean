import Verif.Layout.Lemmas
/-
Lemmas for C26: leaving out the zero-sized fields does not change the layout.
-/
namespace Verif.Layout

theorem LeastMultiple.unique {a n x y : Nat} (hx : LeastMultiple a n x) (hy : LeastMultiple a n y) :
    x = y :=
  Nat.le_antisymm (hx.2.2 y hy.1 hy.2.1) (hy.2.2 x hx.1 hx.2.1)

theorem leastMultiple_roundUp {a : Nat} (n : Nat) (h : 0 < a) : LeastMultiple a n (roundUp n a) := by
  refine ⟨dvd_roundUp n a, le_roundUp n h, ?_⟩
  rintro y ⟨c, rfl⟩ hy
  unfold roundUp
  rw [Nat.mul_comm]
  apply Nat.mul_le_mul_left
  have h1 : n + a - 1 < (c + 1) * a := by rw [Nat.add_mul, Nat.mul_comm c]; omega
  exact Nat.lt_succ_iff.mp ((Nat.div_lt_iff_lt_mul h).mpr h1)

theorem leastMultiple_one {n x : Nat} (h : LeastMultiple 1 n x) : x = n :=
  h.unique ⟨Nat.one_dvd _, Nat.le_refl _, fun _ _ h => h⟩

theorem placedFrom_offsets : ∀ (ms : List (Nat × Nat)) (pos : Nat), (∀ m ∈ ms, 0 < m.2) →
    PlacedFrom pos ms (offsetsFrom pos ms) (endFrom pos ms)
  | [], _, _ => .nil
  | (s, a) :: ms, pos, h =>
    .cons (leastMultiple_roundUp pos (h (s, a) (by simp)))
      (placedFrom_offsets ms _ (fun m hm => h m (by simp [hm])))

theorem PlacedFrom.unique {pos : Nat} {ms : List (Nat × Nat)} {os os' : List Nat} {e e' : Nat}
    (h : PlacedFrom pos ms os e) (h' : PlacedFrom pos ms os' e') : os = os' ∧ e = e' := by
  induction h generalizing os' e' with
  | nil => cases h'; exact ⟨rfl, rfl⟩
  | cons ho _ ih =>
    cases h' with
    | cons ho' h' =>
      have := ho.unique ho'
      subst this
      have := ih h'
      exact ⟨by rw [this.1], this.2⟩

theorem maxAlign_spec : ∀ (ms : List (Nat × Nat)),
    (1 ≤ maxAlign ms ∧ ∀ m ∈ ms, m.2 ≤ maxAlign ms) ∧
      (maxAlign ms = 1 ∨ ∃ m ∈ ms, m.2 = maxAlign ms)
  | [] => by simp [maxAlign]
  | (s, a) :: ms => by
    have ih := maxAlign_spec ms
    have hm : maxAlign ((s, a) :: ms) = max a (maxAlign ms) := rfl
    refine ⟨⟨maxAlign_pos _, ?_⟩, ?_⟩
    · intro m h
      rw [hm]
      rcases List.mem_cons.mp h with rfl | h
      · exact Nat.le_max_left _ _
      · exact Nat.le_trans (ih.1.2 m h) (Nat.le_max_right _ _)
    · rw [hm]
      by_cases h : maxAlign ms ≤ a
      · exact .inr ⟨(s, a), by simp, by simp; omega⟩
      · rw [Nat.max_eq_right (by omega)]
        rcases ih.2 with h1 | ⟨m, h1, h2⟩
        · have := ih.1.1
          exact .inl h1
        · exact .inr ⟨m, by simp [h1], h2⟩

theorem IsStruct.unique {ms : List (Nat × Nat)} {o o' : List Nat} {s s' a a' : Nat}
    (h : IsStruct ms o s a) (h' : IsStruct ms o' s' a') : o = o' ∧ s = s' ∧ a = a' := by
  have ha : a = a' := by
    apply Nat.le_antisymm
    · rcases h.align_le with h1 | ⟨m, h1, h2⟩
      · have := h'.align_ge.1; omega
      · have := h'.align_ge.2 m h1; omega
    · rcases h'.align_le with h1 | ⟨m, h1, h2⟩
      · have := h.align_ge.1; omega
      · have := h.align_ge.2 m h1; omega
  subst ha
  obtain ⟨e, p, q⟩ := h.placed
  obtain ⟨e', p', q'⟩ := h'.placed
  have := p.unique p'
  obtain ⟨rfl, rfl⟩ := this
  exact ⟨rfl, q.unique q', rfl⟩

theorem isStruct_structLay {ms : List (Nat × Nat)} (h : ∀ m ∈ ms, 0 < m.2) :
    IsStruct ms (offsetsFrom 0 ms) (structLay ms).1 (structLay ms).2 where
  align_ge := (maxAlign_spec ms).1
  align_le := (maxAlign_spec ms).2
  placed := ⟨_, placedFrom_offsets ms 0 h, leastMultiple_roundUp _ (maxAlign_pos ms)⟩

theorem emitMembers_ge : ∀ {ms : List (Nat × Nat)} {i : Nat} {idx : List Nat},
    emitMembers i ms = .ok idx → ∀ j ∈ idx, i ≤ j
  | [], i, idx, h, j, hj => by
    simp only [emitMembers, Except.ok.injEq] at h
    subst h; simp at hj
  | (s, a) :: ms, i, idx, h, j, hj => by
    simp only [emitMembers] at h
    split at h
    · split at h
      · cases h
      · have := emitMembers_ge h j hj; omega
    · cases he : emitMembers (i + 1) ms with
      | error e => simp [he, bind, Except.bind] at h
      | ok r =>
        simp only [he, bind, Except.bind, pure, Except.pure, Except.ok.injEq] at h
        subst h
        rcases List.mem_cons.mp hj with rfl | hj
        · exact Nat.le_refl _
        · have := emitMembers_ge he j hj; omega

theorem pick_cons {α : Type} {x : α} {l : List α} {idx : List Nat} {i : Nat}
    (h : ∀ j ∈ idx, i + 1 ≤ j) :
    idx.filterMap (fun j => (x :: l)[j - i]?) = idx.filterMap (fun j => l[j - (i + 1)]?) := by
  induction idx with
  | nil => rfl
  | cons j idx ih =>
    have hj := h j List.mem_cons_self
    have e : (x :: l)[j - i]? = l[j - (i + 1)]? := by
      rw [show j - i = (j - (i + 1)) + 1 by omega, List.getElem?_cons_succ]
    simp only [List.filterMap_cons, e, ih fun k hk => h k (List.mem_cons_of_mem _ hk)]

theorem emit_placed {ms : List (Nat × Nat)} {pos : Nat} {os : List Nat} {fin : Nat}
    (h : PlacedFrom pos ms os fin) (hp : ∀ m ∈ ms, 0 < m.2) :
    ∀ {i : Nat} {idx : List Nat}, emitMembers i ms = .ok idx →
      PlacedFrom pos (idx.filterMap fun j => ms[j - i]?) (idx.filterMap fun j => os[j - i]?) fin := by
  induction h with
  | nil =>
    intro i idx h
    simp only [emitMembers, Except.ok.injEq] at h
    subst h
    exact .nil
  | @cons pos s a o fin ms os ho hm ih =>
    intro i idx h
    simp only [emitMembers] at h
    have hp' : ∀ m ∈ ms, 0 < m.2 := fun m hm => hp m (by simp [hm])
    split at h
    · rename_i hs
      subst hs
      split at h
      · cases h
      · have ha : a = 1 := by
          have := hp (0, a) (by simp)
          simp only [] at this
          omega
        subst ha
        have hge := emitMembers_ge h
        rw [pick_cons hge, pick_cons hge]
        have := ih hp' h
        rwa [leastMultiple_one ho] at this
    · cases he : emitMembers (i + 1) ms with
      | error e => simp [he, bind, Except.bind] at h
      | ok r =>
        simp only [he, bind, Except.bind, pure, Except.pure, Except.ok.injEq] at h
        subst h
        have hge := emitMembers_ge he
        simp only [List.filterMap_cons, Nat.sub_self, List.getElem?_cons_zero]
        rw [pick_cons hge, pick_cons hge]
        exact .cons ho (ih hp' he)

theorem emit_mem {ms : List (Nat × Nat)} : ∀ {i : Nat} {idx : List Nat},
    emitMembers i ms = .ok idx →
      (∀ m ∈ idx.filterMap (fun j => ms[j - i]?), m ∈ ms) ∧
      (∀ m ∈ ms, m.1 ≠ 0 → m ∈ idx.filterMap (fun j => ms[j - i]?)) ∧
      (∀ m ∈ ms, m.1 = 0 → m.2 ≤ 1) := by
  induction ms with
  | nil =>
    intro i idx h
    simp only [emitMembers, Except.ok.injEq] at h
    subst h
    simp
  | cons m ms ih =>
    obtain ⟨s, a⟩ := m
    intro i idx h
    simp only [emitMembers] at h
    split at h
    · rename_i hs
      subst hs
      split at h
      · cases h
      · rename_i ha
        have ih := ih h
        rw [pick_cons (emitMembers_ge h)]
        refine ⟨fun m hm => List.mem_cons_of_mem _ (ih.1 m hm), ?_, ?_⟩
        · intro m hm hz
          rcases List.mem_cons.mp hm with rfl | hm
          · exact absurd rfl hz
          · exact ih.2.1 m hm hz
        · intro m hm hz
          rcases List.mem_cons.mp hm with rfl | hm
          · simpa using ha
          · exact ih.2.2 m hm hz
    · rename_i hs
      cases he : emitMembers (i + 1) ms with
      | error e => simp [he, bind, Except.bind] at h
      | ok r =>
        simp only [he, bind, Except.bind, pure, Except.pure, Except.ok.injEq] at h
        subst h
        have ih := ih he
        simp only [List.filterMap_cons, Nat.sub_self, List.getElem?_cons_zero]
        rw [pick_cons (emitMembers_ge he)]
        refine ⟨?_, ?_, ?_⟩
        · intro m hm
          rcases List.mem_cons.mp hm with rfl | hm
          · exact List.mem_cons_self
          · exact List.mem_cons_of_mem _ (ih.1 m hm)
        · intro m hm hz
          rcases List.mem_cons.mp hm with rfl | hm
          · exact List.mem_cons_self
          · exact List.mem_cons_of_mem _ (ih.2.1 m hm hz)
        · intro m hm hz
          rcases List.mem_cons.mp hm with rfl | hm
          · exact absurd hz hs
          · exact ih.2.2 m hm hz

theorem emit_isStruct {ms : List (Nat × Nat)} (hp : ∀ m ∈ ms, 0 < m.2) {idx : List Nat}
    (h : emitMembers 0 ms = .ok idx) {os : List Nat} {s a : Nat} (hs : IsStruct ms os s a) :
    IsStruct (pick ms idx) (pick os idx) s a := by
  have hm := emit_mem h
  simp only [Nat.sub_zero] at hm
  refine ⟨⟨hs.align_ge.1, fun m h => hs.align_ge.2 m (hm.1 m h)⟩, ?_, ?_⟩
  · rcases hs.align_le with h1 | ⟨m, h1, h2⟩
    · exact .inl h1
    · by_cases hz : m.1 = 0
      · left
        have := hm.2.2 m h1 hz
        have := hs.align_ge.1
        omega
      · exact .inr ⟨m, hm.2.1 m h1 hz, h2⟩
  · obtain ⟨fin, h1, h2⟩ := hs.placed
    have := emit_placed h1 hp h
    simp only [Nat.sub_zero] at this
    exact ⟨fin, this, h2⟩

theorem emit_idx {ms : List (Nat × Nat)} : ∀ {i : Nat} {idx : List Nat},
    emitMembers i ms = .ok idx → idx = (List.range' i ms.length).filter fun j =>
      match ms[j - i]? with
      | some m => m.1 != 0
      | none => false := by
  induction ms with
  | nil =>
    intro i idx h
    simp only [emitMembers, Except.ok.injEq] at h
    subst h
    rfl
  | cons m ms ih =>
    obtain ⟨s, a⟩ := m
    intro i idx h
    have hcongr : (List.range' (i + 1) ms.length).filter (fun j =>
        match ((s, a) :: ms)[j - i]? with | some m => m.1 != 0 | none => false) =
        (List.range' (i + 1) ms.length).filter (fun j =>
        match ms[j - (i + 1)]? with | some m => m.1 != 0 | none => false) := by
      apply List.filter_congr
      intro j hj
      have := (List.mem_range'_1.mp hj).1
      rw [show j - i = (j - (i + 1)) + 1 by omega, List.getElem?_cons_succ]
    simp only [List.length_cons, List.range'_succ]
    simp only [emitMembers] at h
    split at h
    · rename_i hs
      subst hs
      split at h
      · cases h
      · rw [List.filter_cons_of_neg (by simp), hcongr]
        exact ih h
    · rename_i hs
      cases he : emitMembers (i + 1) ms with
      | error e => simp [he, bind, Except.bind] at h
      | ok r =>
        simp only [he, bind, Except.bind, pure, Except.pure, Except.ok.injEq] at h
        rw [List.filter_cons_of_pos (by simpa using hs), hcongr, ← h, ih he]

theorem emit_error {ms : List (Nat × Nat)} : ∀ {i : Nat} {e : EmitPanic},
    emitMembers i ms = .error e → e = .zstAlign ∧ ∃ m ∈ ms, m.1 = 0 ∧ 1 < m.2 := by
  induction ms with
  | nil => intro i e h; simp [emitMembers] at h
  | cons m ms ih =>
    obtain ⟨s, a⟩ := m
    intro i e h
    simp only [emitMembers] at h
    split at h
    · rename_i hs
      subst hs
      split at h
      · rename_i ha
        cases h
        exact ⟨rfl, (0, a), by simp, rfl, ha⟩
      · obtain ⟨h1, m, h2, h3⟩ := ih h
        exact ⟨h1, m, by simp [h2], h3⟩
    · cases he : emitMembers (i + 1) ms with
      | ok r => simp [he, bind, Except.bind, pure, Except.pure] at h
      | error e' =>
        simp only [he, bind, Except.bind, Except.error.injEq] at h
        subst h
        obtain ⟨h1, m, h2, h3⟩ := ih he
        exact ⟨h1, m, by simp [h2], h3⟩

end Verif.Layout
