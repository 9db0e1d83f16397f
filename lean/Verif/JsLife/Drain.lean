import Verif.JsLife.Step
/-! # What the event loop does with what is left to it -/
namespace Verif.JsLife

/-- Nothing but calls have been added. -/
def Later (l l' : List Ev) : Prop :=
  (∀ c, handles c l' = handles c l) ∧ (∀ c, asked c l' = asked c l) ∧ (∀ e ∈ l, e ∈ l') ∧
  (∀ n c, .queued n c ∈ l' → .queued n c ∈ l) ∧ (∀ r, deletions r l' = deletions r l)

theorem Later.refl (l : List Ev) : Later l l := ⟨fun _ => rfl, fun _ => rfl, fun _ h => h, fun _ _ h => h, fun _ => rfl⟩

theorem Later.trans {l m n : List Ev} (h : Later l m) (h' : Later m n) : Later l n :=
  ⟨fun c => (h'.1 c).trans (h.1 c), fun c => (h'.2.1 c).trans (h.2.1 c), fun e he => h'.2.2.1 e (h.2.2.1 e he),
    fun a b he => h.2.2.2.1 a b (h'.2.2.2.1 a b he), fun r => (h'.2.2.2.2 r).trans (h.2.2.2.2 r)⟩

theorem Later.invoked (n f : Nat) (l : List Ev) : Later l (.invoked n f :: l) := by
  refine ⟨fun _ => rfl, fun _ => rfl, fun e h => List.mem_cons_of_mem _ h, fun a b h => ?_, fun _ => rfl⟩
  simpa using h

/-- What `turn k` leaves as it is. -/
structure Frame (k : Nat) (s s' : State) : Prop where
  dead : s'.dead = s.dead
  ntsfns : s'.ntsfns = s.ntsfns
  others : ∀ j, j ≠ k → s'.tsfns j = s.tsfns j
  log : Later s.log s'.log

theorem Frame.refl (k : Nat) (s : State) : Frame k s s := ⟨rfl, rfl, fun _ _ => rfl, .refl _⟩

theorem Frame.trans {k : Nat} {s s' s'' : State} (h : Frame k s s') (h' : Frame k s' s'') : Frame k s s'' :=
  ⟨h'.dead.trans h.dead, h'.ntsfns.trans h.ntsfns, fun j hj => (h'.others j hj).trans (h.others j hj), h.log.trans h'.log⟩

theorem turn_frame (C : Cfg) {s : State} (h : Inv C s) (k : Nat) : Frame k s (step C s (.turn k)) := by
  unfold step
  by_cases hd : s.dead
  · rw [if_pos hd]; exact .refl _ _
  rw [if_neg hd]
  by_cases hk : (s.tsfns k).closed = true
  · simpa [hk] using Frame.refl k s
  have hk : (s.tsfns k).closed = false := by simpa using hk
  cases hq : (s.tsfns k).queue with
  | nil =>
    by_cases hr : (s.tsfns k).released = true
    · simp only [hk, hq, hr, ↓reduceIte, Bool.false_eq_true]
      exact ⟨rfl, rfl, fun j hj => by simp [upd, hj], .refl _⟩
    · simpa [hk, hq, hr] using Frame.refl k s
  | cons n q =>
    have hf : (s.tsfns k).fn ∉ s.gone := fun hf => h.goneT _ hf _ hk rfl
    simp only [hk, hq, ↓reduceIte, Bool.false_eq_true, invoke, hf]
    exact ⟨rfl, rfl, fun j hj => by simp [upd, hj], .invoked _ _ _⟩

/-- Enough turns empty the queue, and close what has been released. -/
theorem drain_one (C : Cfg) (k : Nat) : ∀ (m : Nat) (s : State), Inv C s → s.dead = false →
    (s.tsfns k).queue.length = m →
    ∃ j, let s' := (List.replicate j (Op.turn k)).foldl (step C) s
      Inv C s' ∧ Frame k s s' ∧ (s'.tsfns k).queue = [] ∧
        ((s'.tsfns k).released = true → (s'.tsfns k).closed = true)
  | 0, s, h, hd, hm => by
    refine ⟨1, h.step (.turn k) trivial, turn_frame C h k, ?_⟩
    have hq : (s.tsfns k).queue = [] := List.length_eq_zero_iff.1 hm
    show ((step C s (.turn k)).tsfns k).queue = [] ∧ (((step C s (.turn k)).tsfns k).released = true → ((step C s (.turn k)).tsfns k).closed = true)
    unfold step
    by_cases hk : (s.tsfns k).closed = true
    · simp [hk, hd, hq]
    · have hk : (s.tsfns k).closed = false := by simpa using hk
      by_cases hr : (s.tsfns k).released = true
      · simp [hk, hd, hq, hr, upd]
      · simp [hk, hd, hq, hr]
  | m + 1, s, h, hd, hm => by
    have h' := h.step (.turn k) trivial
    have hf' := turn_frame C h k
    have hl : ((step C s (.turn k)).tsfns k).queue.length = m := by
      have hk : (s.tsfns k).closed = false := by
        cases hk : (s.tsfns k).closed with
        | false => rfl
        | true => rw [(h.tcl k hk).2] at hm; cases hm
      cases hq : (s.tsfns k).queue with
      | nil => rw [hq] at hm; cases hm
      | cons n q =>
        have hf : (s.tsfns k).fn ∉ s.gone := fun hf => h.goneT _ hf _ hk rfl
        rw [hq] at hm
        unfold step
        simp only [hk, hd, hq, ↓reduceIte, Bool.false_eq_true, invoke, hf, upd]
        simpa using hm
    obtain ⟨j, h1, h2, h3⟩ := drain_one C k m _ h' (by rw [hf'.dead, hd]) hl
    exact ⟨j + 1, by simpa [List.replicate_succ] using h1, by simpa [List.replicate_succ] using hf'.trans h2,
      by simpa [List.replicate_succ] using h3⟩

theorem drain_all (C : Cfg) {s : State} (h : Inv C s) (hd : s.dead = false) : ∀ m : Nat,
    ∃ ks : List Nat, let s' := (ks.map Op.turn).foldl (step C) s
      Inv C s' ∧ s'.dead = false ∧ s'.ntsfns = s.ntsfns ∧ Later s.log s'.log ∧
      ∀ k, k < m → (s'.tsfns k).queue = [] ∧ ((s'.tsfns k).released = true → (s'.tsfns k).closed = true)
  | 0 => ⟨[], h, hd, rfl, .refl _, fun _ h => by cases h⟩
  | m + 1 => by
    obtain ⟨ks, h1, h2, h3, h4, h5⟩ := drain_all C h hd m
    obtain ⟨j, g1, g2, g3⟩ := drain_one C m _ _ h1 h2 rfl
    refine ⟨ks ++ List.replicate j m, ?_⟩
    have e : ((ks ++ List.replicate j m).map Op.turn).foldl (step C) s =
        (List.replicate j (Op.turn m)).foldl (step C) ((ks.map Op.turn).foldl (step C) s) := by
      rw [List.map_append, List.foldl_append, List.map_replicate]
    simp only [e]
    refine ⟨g1, by rw [g2.dead, h2], by rw [g2.ntsfns, h3], h4.trans g2.log, fun k hk => ?_⟩
    by_cases hkm : k = m
    · subst hkm; exact g3
    · rw [g2.others k hkm]; exact h5 k (by omega)

theorem quiet_of {C : Cfg} {s : State} (h : Inv C s)
    (hq : ∀ k, k < s.ntsfns → (s.tsfns k).queue = [] ∧ ((s.tsfns k).released = true → (s.tsfns k).closed = true)) :
    Quiet s := by
  intro k
  cases hk : (s.tsfns k).closed with
  | true => exact ⟨(h.tcl k hk).2, fun _ => rfl⟩
  | false => rw [← hk]; exact hq k (h.tN k hk)

theorem lawful_turns (C : Cfg) : ∀ (ks : List Nat) (s : State), Lawful C s (ks.map Op.turn)
  | [], _ => trivial
  | _ :: ks, _ => ⟨trivial, lawful_turns C ks _⟩

theorem lawful_append (C : Cfg) : ∀ (a b : List Op) (s : State),
    Lawful C s a → Lawful C (a.foldl (step C) s) b → Lawful C s (a ++ b)
  | [], _, _, _, h => h
  | _ :: a, b, _, h, h' => ⟨h.1, lawful_append C a b _ h.2 h'⟩

theorem runs_of_mem {n f : Nat} : ∀ {l : List Ev}, .invoked n f ∈ l → 0 < runs n l
  | e :: l, h => by
    rcases List.mem_cons.1 h with h | h
    · subst h; simp [runs]
    · have := runs_of_mem h
      cases e <;> simp only [runs] <;> omega

end Verif.JsLife
