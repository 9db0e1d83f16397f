import Verif.Js.ClosureLemmas
/-!
# Lemmas about the log and the queue of the callback model
-/
namespace Verif.Js

theorem Good.allowed {C : Cfg} : ∀ {log : List Ev}, Good C log → ∀ {e past}, (e :: past) <:+ log → Allowed C past e ∧ Good C past
  | [], _, e, past, h => by simp at h
  | a :: log, hg, e, past, h => by
      rcases List.suffix_cons_iff.1 h with h | h
      · cases h; exact ⟨hg.1, hg.2.2⟩
      · exact hg.2.2.allowed h

theorem Good.ended {C : Cfg} : ∀ {log : List Ev}, Good C log → ∀ {e past}, (e :: past) <:+ log → Ev.aborted ∉ past
  | [], _, e, past, h => by simp at h
  | a :: log, hg, e, past, h => by
      rcases List.suffix_cons_iff.1 h with h | h
      · cases h; exact hg.2.1
      · exact hg.2.2.ended h

theorem exists_suffix {e : Ev} : ∀ {log : List Ev}, e ∈ log → ∃ past, (e :: past) <:+ log
  | a :: log, h => by
      rcases List.mem_cons.1 h with rfl | h
      · exact ⟨log, List.suffix_rfl⟩
      · obtain ⟨past, hp⟩ := exists_suffix h
        exact ⟨past, hp.trans (List.suffix_cons a log)⟩

theorem Good.mem {C : Cfg} {log : List Ev} (hg : Good C log) {e : Ev} (h : e ∈ log) :
    ∃ past, (e :: past) <:+ log ∧ Allowed C past e := by
  obtain ⟨past, hp⟩ := exists_suffix h
  exact ⟨past, hp, (hg.allowed hp).1⟩

theorem suffix_mem {e a : Ev} {past log : List Ev} (h : (e :: past) <:+ log) (ha : a ∈ past) : a ∈ log :=
  h.subset (List.mem_cons_of_mem _ ha)

theorem good_once {C : Cfg} : ∀ {log : List Ev}, Good C log → (log.filterMap Ev.key).Nodup
  | [], _ => by simp
  | e :: past, hg => by
      have ih := good_once hg.2.2
      have ha := hg.1
      have key : ∀ p, e.key = some p → (∀ e' ∈ past, e'.key ≠ some p) → ((e :: past).filterMap Ev.key).Nodup := by
        intro p hp hn
        rw [List.filterMap_cons_some hp, List.nodup_cons]
        refine ⟨fun hm => ?_, ih⟩
        obtain ⟨e', he', hk⟩ := List.mem_filterMap.1 hm
        exact hn e' he' hk
      cases e with
      | aborted => rw [List.filterMap_cons_none rfl]; exact ih
      | called c t args =>
        refine key _ rfl fun e' he' hk => ?_
        cases e' <;> simp [Ev.key] at hk
        subst hk; exact ha.1 _ _ he'
      | dropped c =>
        refine key _ rfl fun e' he' hk => ?_
        have hh := ha.2.2
        cases e' <;> simp [Ev.key] at hk <;> subst hk
        · exact hh (.inr (.inr he'))
        · exact hh (.inr (.inl he'))
        · exact hh (.inl ⟨_, he'⟩)
      | skipped c =>
        refine key _ rfl fun e' he' hk => ?_
        obtain ⟨_, _, _, _, _, _, hh⟩ := ha
        cases e' <;> simp [Ev.key] at hk <;> subst hk
        · exact hh (.inr (.inr he'))
        · exact hh (.inr (.inl he'))
        · exact hh (.inl ⟨_, he'⟩)
      | invoked c js =>
        refine key _ rfl fun e' he' hk => ?_
        obtain ⟨_, _, _, _, hh, _⟩ := ha
        cases e' <;> simp [Ev.key] at hk <;> subst hk
        · exact hh (.inr (.inr he'))
        · exact hh (.inr (.inl he'))
        · exact hh (.inl ⟨_, he'⟩)
      | sent c j =>
        refine key _ rfl fun e' he' hk => ?_
        cases e' <;> simp [Ev.key] at hk <;> subst hk
        exact ha.2.2.2 _ he'
      | inner c r =>
        refine key _ rfl fun e' he' hk => ?_
        cases e' <;> simp [Ev.key] at hk <;> subst hk
        exact ha.2.1 _ he'
      | finished c r =>
        refine key _ rfl fun e' he' hk => ?_
        cases e' <;> simp [Ev.key] at hk <;> subst hk
        exact ha.2 _ he'
      | returned c v =>
        refine key _ rfl fun e' he' hk => ?_
        cases e' <;> simp [Ev.key] at hk <;> subst hk
        exact ha.1 _ he'

theorem unique_of_nodup {a b : Ev} {p : Nat × Nat} (ha : a.key = some p) (hb : b.key = some p) :
    ∀ {log : List Ev}, (log.filterMap Ev.key).Nodup → a ∈ log → b ∈ log → a = b
  | e :: log, hn, h1, h2 => by
      rcases List.mem_cons.1 h1 with rfl | h3
      · rcases List.mem_cons.1 h2 with rfl | h4
        · rfl
        · rw [List.filterMap_cons_some ha, List.nodup_cons] at hn
          exact absurd (List.mem_filterMap.2 ⟨b, h4, hb⟩) hn.1
      · rcases List.mem_cons.1 h2 with rfl | h4
        · rw [List.filterMap_cons_some hb, List.nodup_cons] at hn
          exact absurd (List.mem_filterMap.2 ⟨a, h3, ha⟩) hn.1
        · refine unique_of_nodup ha hb ?_ h3 h4
          cases hk : e.key with
          | none => rwa [List.filterMap_cons_none hk] at hn
          | some q => rw [List.filterMap_cons_some hk, List.nodup_cons] at hn; exact hn.2

theorem handles_iff (c : Nat) (log : List Ev) : log.any (Ev.handles c) = true ↔ Handled log c := by
  simp only [List.any_eq_true, Handled]
  constructor
  · rintro ⟨e, he, hh⟩
    cases e <;> simp [Ev.handles] at hh <;> subst hh
    · exact .inr (.inr he)
    · exact .inr (.inl he)
    · exact .inl ⟨_, he⟩
  · rintro (⟨js, h⟩ | h | h)
    · exact ⟨_, h, by simp [Ev.handles]⟩
    · exact ⟨_, h, by simp [Ev.handles]⟩
    · exact ⟨_, h, by simp [Ev.handles]⟩

theorem mem_pending {C : Cfg} {log : List Ev} {c : Nat} :
    c ∈ pending C log ↔ (∃ t args, Ev.called c t args ∈ log ∧ Queued C t) ∧ ¬ Handled log c := by
  unfold pending
  rw [List.mem_filterMap, ← handles_iff]
  constructor
  · rintro ⟨e, he, h⟩
    cases e with
    | called c' t args =>
      simp only [Option.ite_none_right_eq_some, Bool.and_eq_true, Bool.or_eq_true, bne_iff_ne, Bool.not_eq_true', Option.some.injEq] at h
      obtain ⟨⟨h1, h2⟩, rfl⟩ := h
      exact ⟨⟨t, args, he, h1⟩, by simp [h2]⟩
    | _ => cases h
  · rintro ⟨⟨t, args, he, hq⟩, hh⟩
    refine ⟨_, he, ?_⟩
    have h1 : (C.detached || t != C.main) = true := by simpa [Queued] using hq
    have h2 : (!log.any (Ev.handles c)) = true := by simpa using hh
    simp only [h1, h2, Bool.and_self, if_true]

theorem pairwise_called {f : Nat → Nat → Bool} : ∀ {log : List Ev}, Numbered log →
    (log.filterMap fun | .called c t _ => if f c t then some c else none | _ => none).Pairwise (· > ·)
  | [], _ => by simp
  | e :: log, hn => by
      have tail : Numbered log := by cases e <;> first | exact hn.2 | exact hn
      have ih := pairwise_called (f := f) tail
      cases e with
      | called c t args =>
        by_cases hf : f c t
        · rw [List.filterMap_cons_some (b := c) (by simp [hf]), List.pairwise_cons]
          refine ⟨fun c' hc' => ?_, ih⟩
          obtain ⟨e', he', h⟩ := List.mem_filterMap.1 hc'
          cases e' <;> simp at h
          obtain ⟨_, rfl⟩ := h
          exact hn.1 _ _ _ he'
        · rw [List.filterMap_cons_none (by simp [hf])]; exact ih
      | _ => rw [List.filterMap_cons_none rfl]; exact ih

theorem sorted_ext : ∀ {l m : List Nat}, l.Pairwise (· < ·) → m.Pairwise (· < ·) → (∀ x, x ∈ l ↔ x ∈ m) → l = m
  | [], [], _, _, _ => rfl
  | [], b :: m, _, _, h => by simpa using (h b).2 (by simp)
  | a :: l, [], _, _, h => by simpa using (h a).1 (by simp)
  | a :: l, b :: m, hl, hm, h => by
      rw [List.pairwise_cons] at hl hm
      have hab : a = b := by
        have h1 := (h a).1 (by simp)
        have h2 := (h b).2 (by simp)
        rcases List.mem_cons.1 h1 with e | h1
        · exact e
        · rcases List.mem_cons.1 h2 with e | h2
          · exact e.symm
          · have := hl.1 _ h2; have := hm.1 _ h1; omega
      subst hab
      refine congrArg _ (sorted_ext hl.2 hm.2 fun x => ?_)
      constructor
      · intro hx
        rcases List.mem_cons.1 ((h x).1 (List.mem_cons_of_mem _ hx)) with e | h'
        · have := hl.1 _ hx; omega
        · exact h'
      · intro hx
        rcases List.mem_cons.1 ((h x).2 (List.mem_cons_of_mem _ hx)) with e | h'
        · have := hm.1 _ hx; omega
        · exact h'

theorem Rel.queue_eq {C : Cfg} {x : Option Nat} {s : State} (h : Rel C x s) (hd : s.dead = false) : s.queue = (pending C s.log).reverse := by
  refine sorted_ext h.sorted ?_ fun c => ?_
  · rw [List.pairwise_reverse]
    exact pairwise_called (f := fun c t => (C.detached || t != C.main) && !s.log.any (Ev.handles c)) h.numbered
  · rw [List.mem_reverse, mem_pending]
    constructor
    · intro hc
      obtain ⟨hh, k, hk, hq⟩ := h.queueIn c hc
      exact ⟨⟨_, _, h.called c k hk, hq⟩, hh⟩
    · rintro ⟨⟨t, args, he, hq⟩, hh⟩
      obtain ⟨k, hk, rfl, rfl⟩ := h.called' c t args he
      exact (h.queueAll hd c k hk hq).resolve_right hh

end Verif.Js
