import Verif.Headers.PpSpec
/-! # Lemmas about the preprocessor -/
namespace Verif.Headers
open Text

theorem split_nl (a b : Text) : split '\n' (a ++ '\n' :: b) = split '\n' a ++ split '\n' b := by
  induction a with
  | nil => simp [Text.split]
  | cons c cs ih =>
    rw [List.cons_append, Text.split, Text.split, ih]
    by_cases h : c = '\n'
    · simp [h]
    · rw [if_neg h, if_neg h]
      cases hs : split '\n' cs with
      | nil => exact absurd hs (split_ne_nil _ _)
      | cons p ps => rfl

theorem Pp.run_append (eval : List Text → Text → Bool) (st : Pp) (a b : List Text) :
    st.run eval (a ++ b) = (st.run eval a).bind (·.run eval b) := by
  induction a generalizing st with
  | nil => rfl
  | cons l ls ih =>
    rw [List.cons_append, Pp.run, Pp.run]
    cases st.step eval l with
    | none => rfl
    | some st' => exact ih st'

/-! ### Nesting -/

theorem nest_cons (d : Nat) (l : Text) (ls : List Text) : nest d (l :: ls) = (nest1 d l).bind (nest · ls) := rfl

theorem nest_append (d : Nat) (a b : List Text) : nest d (a ++ b) = (nest d a).bind (nest · b) := by
  induction a generalizing d with
  | nil => rfl
  | cons l ls ih =>
    rw [List.cons_append, nest_cons, nest_cons]
    cases nest1 d l with
    | none => rfl
    | some d' => exact ih d'

theorem nest1_add {d d' : Nat} {l : Text} (h : nest1 d l = some d') (k : Nat) : nest1 (d + k) l = some (d' + k) := by
  unfold nest1 at h ⊢
  cases hd : directive l with
  | none => rw [hd] at h; simp at h ⊢; exact h
  | some kr =>
    obtain ⟨w, r⟩ := kr
    rw [hd] at h
    simp only at h ⊢
    split at h
    · next hw => rw [if_pos hw]; simp at h ⊢; omega
    · next hw =>
      rw [if_neg hw]
      split at h
      · next hw' =>
        rw [if_pos hw']
        cases d with
        | zero => simp at h
        | succ d => simp at h; subst h; rw [show d + 1 + k = d + k + 1 by omega]
      · next hw' =>
        rw [if_neg hw']
        split at h
        · next he =>
          rw [if_pos he]
          cases d with
          | zero => simp at h
          | succ d => simp at h; subst h; rw [show d + 1 + k = d + k + 1 by omega]
        · next he => rw [if_neg he]; simp at h ⊢; exact h

theorem nest_add {d d' : Nat} {ls : List Text} (h : nest d ls = some d') (k : Nat) : nest (d + k) ls = some (d' + k) := by
  induction ls generalizing d with
  | nil => simp [nest] at h ⊢; exact h
  | cons l ls ih =>
    rw [nest_cons] at h ⊢
    cases h1 : nest1 d l with
    | none => rw [h1] at h; simp at h
    | some e =>
      rw [h1] at h
      rw [nest1_add h1 k]
      exact ih h

/-! ### One line -/

/-- Nothing is kept inside a group that is skipped. -/
def Skipped (cs : List Cond) : Prop := ∀ c ∈ cs, c.outer = false ∧ c.now = false

/-- The conditionals around are skipped. -/
def Dead (base : List Cond) : Prop := ∃ c cs, base = c :: cs ∧ c.now = false

theorem active_dead {cs base : List Cond} (hb : Dead base) (hs : Skipped cs) (defs out : List Text) :
    (Pp.mk defs (cs ++ base) out).active = false := by
  obtain ⟨c, bs, rfl, hc⟩ := hb
  cases cs with
  | nil => exact hc
  | cons x xs => exact (hs x (by simp)).2

/-- The stack after a line, if the line closes no conditional of `base`. -/
theorem step_stack {eval : List Text → Text → Bool} {d' : Nat} {l : Text} {defs out : List Text} {cs base : List Cond}
    (h : nest1 cs.length l = some d') :
    ∃ defs' out' cs', (Pp.mk defs (cs ++ base) out).step eval l = some ⟨defs', cs' ++ base, out'⟩ ∧ cs'.length = d' ∧
      (∀ g, keeps g l = true → g ∈ defs → g ∈ defs') ∧
      (Dead base → Skipped cs → Skipped cs' ∧ defs' = defs ∧ out' = out) := by
  unfold nest1 at h
  rw [Pp.step]
  have hkeep : ∀ l', ∃ out', (Pp.mk defs (cs ++ base) out).keep l' = ⟨defs, cs ++ base, out'⟩ ∧ (Dead base → Skipped cs → out' = out) := by
    intro l'
    rw [Pp.keep]
    split
    · next ha =>
      refine ⟨_, rfl, fun hb hs => ?_⟩
      rw [active_dead hb hs] at ha
      cases ha
    · exact ⟨_, rfl, fun _ _ => rfl⟩
  have hpush : ∀ b, ∃ x, (Pp.mk defs (cs ++ base) out).push b = ⟨defs, (x :: cs) ++ base, out⟩ ∧
      (Dead base → Skipped cs → Skipped (x :: cs)) := by
    intro b
    refine ⟨_, rfl, fun hb hs x hx => ?_⟩
    rcases List.mem_cons.1 hx with rfl | hx
    · rw [active_dead hb hs]; simp
    · exact hs x hx
  have hnext : ∀ b x xs, cs = x :: xs → (Dead base → Skipped cs → Skipped (x.next b :: xs)) := by
    intro b x xs e _ hs y hy
    subst e
    rcases List.mem_cons.1 hy with rfl | hy
    · have := (hs x (by simp)).1
      simp [Cond.next, this]
    · exact hs y (by simp [hy])
  cases hd : directive l with
  | none =>
    rw [hd] at h
    simp at h
    obtain ⟨out', e, ho⟩ := hkeep l
    exact ⟨defs, out', cs, by simp [e], h, fun _ _ hg => hg, fun hb hs => ⟨hs, rfl, ho hb hs⟩⟩
  | some kr =>
    obtain ⟨k, r⟩ := kr
    rw [hd] at h
    simp only at h ⊢
    by_cases h1 : k = t!"ifdef"
    · rw [if_pos h1]
      rw [if_pos (.inl h1)] at h
      obtain ⟨x, e, hx⟩ := hpush (decide (ident r ∈ defs))
      exact ⟨defs, out, x :: cs, by rw [e], by simp at h ⊢; exact h, fun _ _ hg => hg, fun hb hs => ⟨hx hb hs, rfl, rfl⟩⟩
    rw [if_neg h1]
    by_cases h2 : k = t!"ifndef"
    · rw [if_pos h2]
      rw [if_pos (.inr (.inl h2))] at h
      obtain ⟨x, e, hx⟩ := hpush (decide (ident r ∉ defs))
      exact ⟨defs, out, x :: cs, by rw [e], by simp at h ⊢; exact h, fun _ _ hg => hg, fun hb hs => ⟨hx hb hs, rfl, rfl⟩⟩
    rw [if_neg h2]
    by_cases h3 : k = t!"if"
    · rw [if_pos h3]
      rw [if_pos (.inr (.inr h3))] at h
      obtain ⟨x, e, hx⟩ := hpush (eval defs r)
      exact ⟨defs, out, x :: cs, by rw [e], by simp at h ⊢; exact h, fun _ _ hg => hg, fun hb hs => ⟨hx hb hs, rfl, rfl⟩⟩
    rw [if_neg h3]
    rw [if_neg (by simp [h1, h2, h3])] at h
    by_cases h4 : k = t!"elif"
    · rw [if_pos h4]
      rw [if_pos (.inl h4)] at h
      cases cs with
      | nil => simp at h
      | cons x xs =>
        exact ⟨defs, out, x.next (eval defs r) :: xs, rfl, by simp at h ⊢; exact h, fun _ _ hg => hg,
          fun hb hs => ⟨hnext _ x xs rfl hb hs, rfl, rfl⟩⟩
    rw [if_neg h4]
    by_cases h5 : k = t!"else"
    · rw [if_pos h5]
      rw [if_pos (.inr h5)] at h
      cases cs with
      | nil => simp at h
      | cons x xs =>
        exact ⟨defs, out, x.next true :: xs, rfl, by simp at h ⊢; exact h, fun _ _ hg => hg,
          fun hb hs => ⟨hnext _ x xs rfl hb hs, rfl, rfl⟩⟩
    rw [if_neg h5]
    rw [if_neg (by simp [h4, h5])] at h
    by_cases h6 : k = t!"endif"
    · rw [if_pos h6]
      rw [if_pos h6] at h
      cases cs with
      | nil => simp at h
      | cons x xs =>
        exact ⟨defs, out, xs, rfl, by simp at h ⊢; exact h, fun _ _ hg => hg,
          fun _ hs => ⟨fun c hc => hs c (by simp [hc]), rfl, rfl⟩⟩
    rw [if_neg h6]
    rw [if_neg h6] at h
    simp at h
    by_cases h7 : k = t!"define"
    · rw [if_pos h7]
      by_cases ha : (Pp.mk defs (cs ++ base) out).active = true
      · rw [if_pos ha]
        exact ⟨_, _, cs, rfl, h, fun _ _ hg => by simp [hg], fun hb hs => by rw [active_dead hb hs] at ha; cases ha⟩
      · rw [if_neg ha]
        exact ⟨_, _, cs, rfl, h, fun _ _ hg => hg, fun _ hs => ⟨hs, rfl, rfl⟩⟩
    rw [if_neg h7]
    by_cases h8 : k = t!"undef"
    · rw [if_pos h8]
      by_cases ha : (Pp.mk defs (cs ++ base) out).active = true
      · rw [if_pos ha]
        refine ⟨_, _, cs, rfl, h, fun g hk hg => ?_, fun hb hs => by rw [active_dead hb hs] at ha; cases ha⟩
        rw [keeps, hd] at hk
        simp [h8] at hk
        simp [hg]
        exact fun e => hk e.symm
      · rw [if_neg ha]
        exact ⟨_, _, cs, rfl, h, fun _ _ hg => hg, fun _ hs => ⟨hs, rfl, rfl⟩⟩
    rw [if_neg h8]
    obtain ⟨out', e, ho⟩ := hkeep l
    exact ⟨defs, out', cs, by simp [e], h, fun _ _ hg => hg, fun hb hs => ⟨hs, rfl, ho hb hs⟩⟩

theorem run_stack {eval : List Text → Text → Bool} {ls : List Text} {d' : Nat} {base : List Cond} :
    ∀ {defs out : List Text} {cs : List Cond}, nest cs.length ls = some d' →
    ∃ defs' out' cs', (Pp.mk defs (cs ++ base) out).run eval ls = some ⟨defs', cs' ++ base, out'⟩ ∧ cs'.length = d' ∧
      (∀ g, (∀ l ∈ ls, keeps g l = true) → g ∈ defs → g ∈ defs') ∧
      (Dead base → Skipped cs → Skipped cs' ∧ defs' = defs ∧ out' = out) := by
  induction ls with
  | nil =>
    intro defs out cs h
    simp [nest] at h
    exact ⟨defs, out, cs, rfl, h, fun _ _ hg => hg, fun _ hs => ⟨hs, rfl, rfl⟩⟩
  | cons l ls ih =>
    intro defs out cs h
    rw [nest_cons] at h
    cases h1 : nest1 cs.length l with
    | none => rw [h1] at h; simp at h
    | some d =>
      rw [h1] at h
      obtain ⟨defs₁, out₁, cs₁, e1, e2, e3, e4⟩ := step_stack (eval := eval) (defs := defs) (out := out) (base := base) h1
      subst e2
      obtain ⟨defs₂, out₂, cs₂, f1, f2, f3, f4⟩ := ih (defs := defs₁) (out := out₁) (cs := cs₁) h
      refine ⟨defs₂, out₂, cs₂, ?_, f2, ?_, ?_⟩
      · rw [Pp.run, e1]; exact f1
      · intro g hk hg
        exact f3 g (fun l hl => hk l (by simp [hl])) (e3 g (hk l (by simp)) hg)
      · intro hb hs
        obtain ⟨g1, rfl, rfl⟩ := e4 hb hs
        exact f4 hb g1

/-- A block of lines whose conditionals are closed. -/
theorem run_closed (eval : List Text → Text → Bool) {ls : List Text} (h : nest 0 ls = some 0) (defs : List Text) (base : List Cond) (out : List Text) :
    ∃ defs' out', (Pp.mk defs base out).run eval ls = some ⟨defs', base, out'⟩ ∧
      (∀ g, (∀ l ∈ ls, keeps g l = true) → g ∈ defs → g ∈ defs') ∧ (Dead base → defs' = defs ∧ out' = out) := by
  obtain ⟨defs', out', cs', h1, h2, h3, h4⟩ := run_stack (eval := eval) (base := base) (defs := defs) (out := out) (cs := []) h
  obtain rfl : cs' = [] := List.eq_nil_of_length_eq_zero h2
  exact ⟨defs', out', h1, h3, fun hb => (h4 hb nofun).2⟩

/-- A block that is skipped. -/
theorem run_dead (eval : List Text → Text → Bool) {ls : List Text} (h : nest 0 ls = some 0) {base : List Cond} (hb : Dead base) (defs out : List Text) :
    (Pp.mk defs base out).run eval ls = some ⟨defs, base, out⟩ := by
  obtain ⟨defs', out', h1, _, h3⟩ := run_closed eval h defs base out
  obtain ⟨rfl, rfl⟩ := h3 hb
  exact h1

/-! ### Frames -/

/-- Lines are kept inside. -/
def Live (base : List Cond) : Prop := (Pp.mk [] base []).active = true

theorem active_live {base : List Cond} (hb : Live base) (defs out : List Text) (cs : List Cond) (pre : List Text) :
    (Pp.mk defs (cs ++ base) (pre ++ out)).active = (Pp.mk defs cs out).active := by
  cases cs with
  | nil => exact hb
  | cons c cs => rfl

def Pp.frame (base : List Cond) (pre : List Text) (st : Pp) : Pp := ⟨st.defs, st.stack ++ base, pre ++ st.out⟩

theorem frame_active {base : List Cond} (hb : Live base) (pre : List Text) (st : Pp) : (st.frame base pre).active = st.active :=
  active_live hb _ _ _ _

theorem frame_keep {base : List Cond} (hb : Live base) (pre : List Text) (st : Pp) (l : Text) :
    (st.frame base pre).keep l = (st.keep l).frame base pre := by
  rw [Pp.keep, Pp.keep, frame_active hb]
  split
  · simp [Pp.frame]
  · rfl

theorem step_frame {eval : List Text → Text → Bool} {base : List Cond} (hb : Live base) (pre : List Text) {st st' : Pp} {l : Text}
    (h : st.step eval l = some st') : (st.frame base pre).step eval l = some (st'.frame base pre) := by
  rw [Pp.step] at h ⊢
  have hpush : ∀ b, (st.frame base pre).push b = (st.push b).frame base pre := by
    intro b
    simp only [Pp.push, frame_active hb]
    rfl
  have hdefs : (st.frame base pre).defs = st.defs := rfl
  cases hd : directive l with
  | none =>
    rw [hd] at h
    simp at h
    simp [frame_keep hb, h]
  | some kr =>
    obtain ⟨k, r⟩ := kr
    rw [hd] at h
    simp only [hpush, hdefs, frame_keep hb, frame_active hb] at h ⊢
    split at h
    · next h1 => rw [if_pos h1, ← Option.some.inj h]
    next h1 =>
    rw [if_neg h1]
    split at h
    · next h1 => rw [if_pos h1, ← Option.some.inj h]
    next h2 =>
    rw [if_neg h2]
    split at h
    · next h1 => rw [if_pos h1, ← Option.some.inj h]
    next h3 =>
    rw [if_neg h3]
    split at h
    · next h1 =>
      rw [if_pos h1]
      obtain ⟨defs, cs, out⟩ := st
      cases cs with
      | nil => simp at h
      | cons c cs => rw [← Option.some.inj h]; rfl
    next h4 =>
    rw [if_neg h4]
    split at h
    · next h1 =>
      rw [if_pos h1]
      obtain ⟨defs, cs, out⟩ := st
      cases cs with
      | nil => simp at h
      | cons c cs => rw [← Option.some.inj h]; rfl
    next h5 =>
    rw [if_neg h5]
    split at h
    · next h1 =>
      rw [if_pos h1]
      obtain ⟨defs, cs, out⟩ := st
      cases cs with
      | nil => simp at h
      | cons c cs => rw [← Option.some.inj h]; rfl
    next h6 =>
    rw [if_neg h6]
    split at h
    · next h1 =>
      rw [if_pos h1, ← Option.some.inj h]
      split <;> rfl
    next h7 =>
    rw [if_neg h7]
    split at h
    · next h1 =>
      rw [if_pos h1, ← Option.some.inj h]
      split <;> rfl
    next h8 =>
    rw [if_neg h8, ← Option.some.inj h]

theorem run_frame {eval : List Text → Text → Bool} {base : List Cond} (hb : Live base) (pre : List Text) {ls : List Text} {st st' : Pp}
    (h : st.run eval ls = some st') : (st.frame base pre).run eval ls = some (st'.frame base pre) := by
  induction ls generalizing st with
  | nil => simp [Pp.run] at h ⊢; rw [h]
  | cons l ls ih =>
    rw [Pp.run] at h ⊢
    cases h1 : st.step eval l with
    | none => rw [h1] at h; simp at h
    | some st₁ =>
      rw [h1] at h
      rw [step_frame hb pre h1]
      exact ih h

end Verif.Headers
