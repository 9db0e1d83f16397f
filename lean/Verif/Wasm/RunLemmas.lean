import Verif.Wasm.Lemmas
/-!
# Lemmas about histories on wasm
-/
namespace Verif.Wasm
open Text Headers Js

/-! ### What boxes hold -/

theorem holds_nil (r : Nat) : holds [] r = none := rfl

theorem holds_snoc (log : List Ev) (e : Ev) (r : Nat) : holds (log ++ [e]) r = (match e with
    | .alloc r' bytes => if r' = r then some bytes else holds log r
    | .free r' => if r' = r then none else holds log r
    | _ => holds log r) := by
  unfold holds
  rw [List.foldl_append]
  cases e <;> rfl

/-- Events that allocate and free nothing. -/
def Ev.quiet : Ev → Bool
  | .alloc .. | .free _ => false
  | _ => true

theorem holds_quiet (log : List Ev) {e : Ev} (h : e.quiet = true) (r : Nat) : holds (log ++ [e]) r = holds log r := by
  rw [holds_snoc]; cases e <;> simp_all [Ev.quiet]

theorem holds_allocs : ∀ (boxes : List (List UInt8)) (log : List Ev) (n r : Nat),
    holds (log ++ allocs n boxes) r = if n ≤ r ∧ r < n + boxes.length then boxes[r - n]? else holds log r
  | [], log, n, r => by simp [allocs]; intros; omega
  | bs :: rest, log, n, r => by
    have : log ++ allocs n (bs :: rest) = (log ++ [.alloc n bs]) ++ allocs (n + 1) rest := by simp [allocs]
    rw [this, holds_allocs rest, holds_snoc]
    simp only [List.length_cons]
    by_cases h : n = r
    · subst h
      rw [if_neg (by omega), if_pos rfl, if_pos (by omega)]
      simp
    · rw [if_neg h]
      by_cases h2 : n + 1 ≤ r ∧ r < n + 1 + rest.length
      · rw [if_pos h2, if_pos (by omega)]
        have : r - n = (r - (n + 1)) + 1 := by omega
        rw [this, List.getElem?_cons_succ]
      · rw [if_neg h2, if_neg (by omega)]

theorem holds_frees : ∀ (cleanup : List Nat) (log : List Ev) (r : Nat),
    holds (log ++ frees cleanup) r = if r ∈ cleanup then none else holds log r
  | [], log, r => by simp [frees]
  | c :: cs, log, r => by
    have : log ++ frees (c :: cs) = (log ++ [.free c]) ++ frees cs := by simp [frees]
    rw [this, holds_frees cs, holds_snoc]
    by_cases h : r ∈ cs
    · simp [h]
    · by_cases h2 : c = r
      · simp [h, h2]
      · have : r ≠ c := fun e => h2 e.symm
        simp [h, h2, this]

/-! ### Safety -/

theorem split_snoc {α : Type} {log past rest : List α} {e x : α} (h : log ++ [e] = past ++ x :: rest) :
    (past = log ∧ x = e ∧ rest = []) ∨ ∃ rest', rest = rest' ++ [e] ∧ log = past ++ x :: rest' := by
  rcases List.eq_nil_or_concat rest with rfl | ⟨rest', y, rfl⟩
  · left
    have := List.append_inj' h (by simp)
    simp only [List.cons.injEq, and_true] at this
    exact ⟨this.1.symm, this.2.symm, rfl⟩
  · right
    refine ⟨rest', ?_, ?_⟩
    · have h' : log ++ [e] = (past ++ x :: rest') ++ [y] := by simp at h ⊢; exact h
      have := List.append_inj' h' rfl
      simp only [List.cons.injEq, and_true] at this
      simp [this.2]
    · have h' : log ++ [e] = (past ++ x :: rest') ++ [y] := by simp at h ⊢; exact h
      exact (List.append_inj' h' rfl).1

/-- Boxes are below `n`, and the history is safe. -/
structure Fine (log : List Ev) (n : Nat) : Prop where
  safe : Safe log
  below : ∀ r bytes, .alloc r bytes ∈ log → r < n

theorem fine_nil : Fine [] 0 := by
  refine ⟨⟨fun past rest r bytes h => ?_, fun past rest r h => ?_⟩, fun r bytes h => ?_⟩
  · cases past <;> simp at h
  · cases past <;> simp at h
  · simp at h

theorem safe_snoc {log : List Ev} {e : Ev} (h : Safe log) (ha : ∀ r bytes, e = .alloc r bytes → ∀ bytes', .alloc r bytes' ∉ log)
    (hf : ∀ r, e = .free r → holds log r ≠ none) : Safe (log ++ [e]) := by
  refine ⟨fun past rest r bytes hs => ?_, fun past rest r hs => ?_⟩
  · rcases split_snoc hs with ⟨rfl, rfl, rfl⟩ | ⟨rest', _, hl⟩
    · exact ha r bytes rfl
    · exact h.1 past rest' r bytes hl
  · rcases split_snoc hs with ⟨rfl, rfl, rfl⟩ | ⟨rest', _, hl⟩
    · exact hf r rfl
    · exact h.2 past rest' r hl

theorem fine_quiet {log : List Ev} {n : Nat} (h : Fine log n) {e : Ev} (he : e.quiet = true) : Fine (log ++ [e]) n := by
  refine ⟨safe_snoc h.safe (fun r bytes e' => ?_) (fun r e' => ?_), fun r bytes hm => ?_⟩
  · subst e'; simp [Ev.quiet] at he
  · subst e'; simp [Ev.quiet] at he
  · rcases List.mem_append.mp hm with hm | hm
    · exact h.below r bytes hm
    · simp only [List.mem_singleton] at hm; subst hm; simp [Ev.quiet] at he

theorem fine_allocs : ∀ (boxes : List (List UInt8)) {log : List Ev} {n : Nat}, Fine log n → Fine (log ++ allocs n boxes) (n + boxes.length)
  | [], log, n, h => by simpa [allocs] using h
  | bs :: rest, log, n, h => by
    have e : log ++ allocs n (bs :: rest) = (log ++ [.alloc n bs]) ++ allocs (n + 1) rest := by simp [allocs]
    have h1 : Fine (log ++ [.alloc n bs]) (n + 1) := by
      refine ⟨safe_snoc h.safe (fun r bytes e' bytes' hm => ?_) (fun r e' => by cases e'), fun r bytes hm => ?_⟩
      · cases e'; exact absurd (h.below _ _ hm) (Nat.lt_irrefl _)
      · rcases List.mem_append.mp hm with hm | hm
        · exact Nat.lt_succ_of_lt (h.below r bytes hm)
        · simp only [List.mem_singleton] at hm; cases hm; omega
    have := fine_allocs rest h1
    rw [e, List.length_cons, Nat.add_comm rest.length 1, ← Nat.add_assoc]; exact this

theorem fine_frees : ∀ (cleanup : List Nat) {log : List Ev} {n : Nat}, Fine log n → cleanup.Nodup →
    (∀ r ∈ cleanup, holds log r ≠ none) → Fine (log ++ frees cleanup) n
  | [], log, n, h, _, _ => by simpa [frees] using h
  | c :: cs, log, n, h, hn, hl => by
    have e : log ++ frees (c :: cs) = (log ++ [.free c]) ++ frees cs := by simp [frees]
    have h1 : Fine (log ++ [.free c]) n := by
      refine ⟨safe_snoc h.safe (fun r bytes e' => by cases e') (fun r e' => ?_), fun r bytes hm => ?_⟩
      · cases e'; exact hl c (by simp)
      · rcases List.mem_append.mp hm with hm | hm
        · exact h.below r bytes hm
        · simp at hm
    rw [List.nodup_cons] at hn
    rw [e]
    refine fine_frees cs h1 hn.2 fun r hr => ?_
    rw [holds_snoc]
    have : c ≠ r := fun e => hn.1 (e ▸ hr)
    simp only [this, if_false]
    exact hl r (by simp [hr])

theorem fine_holds {log : List Ev} {n : Nat} (h : Fine log n) (r : Nat) (hr : n ≤ r) : holds log r = none := by
  have : ∀ log' : List Ev, (∀ r bytes, .alloc r bytes ∈ log'.reverse → r < n) → holds log'.reverse r = none := by
    intro log'
    induction log' with
    | nil => intro _; rfl
    | cons e l ih =>
      intro hb
      rw [List.reverse_cons] at hb ⊢
      rw [holds_snoc]
      have ih := ih fun r bytes hm => hb r bytes (List.mem_append_left _ hm)
      cases e <;> simp only [ih]
      · rename_i r' bytes
        have := hb r' bytes (by simp)
        rw [if_neg (by omega)]
      · split <;> rfl
  have := this log.reverse
  rw [List.reverse_reverse] at this
  exact this h.below

/-! ### The invariant -/

/-- The boxes that a call frees when it ends. -/
def Frame.owned : Frame → List Nat
  | .native _ _ cleanup _ _ _ => cleanup
  | .callback _ => []

section
variable (K : Glue) (E : Env) (b : Nat → Text) (narrow : Num → Num)

/-- The arguments of the call can be read, and are what JavaScript has passed. -/
def FrameOk (log : List Ev) : Frame → Prop
  | .native _ _ cleanup params js args => ∃ vals,
      (∀ mem, (∀ r ∈ cleanup, mem r = holds log r) → reads mem args = some vals) ∧
      (K.Faithful → TypedArgs E params js → fromArgs E b narrow params js = .ok vals)
  | .callback _ => True

structure Inv (s : State) : Prop where
  fine : Fine s.log s.boxes
  owned : s.dead = false → ∀ r, holds s.log r ≠ none ↔ r ∈ s.stack.flatMap Frame.owned
  nodup : (s.stack.flatMap Frame.owned).Nodup
  frames : ∀ f ∈ s.stack, FrameOk K E b narrow s.log f
  dead : s.dead = true ↔ Ev.trapped ∈ s.log

variable {K E b narrow}

theorem frameOk_of {log log' : List Ev} {f : Frame} (h : FrameOk K E b narrow log f) (he : ∀ r ∈ f.owned, holds log' r = holds log r) :
    FrameOk K E b narrow log' f := by
  cases f with
  | callback => trivial
  | native ret worker cleanup params js args =>
    obtain ⟨vals, h1, h2⟩ := h
    exact ⟨vals, fun mem hm => h1 mem fun r hr => by rw [hm r hr, he r hr], h2⟩

theorem trapped_allocs (n : Nat) (bx : List (List UInt8)) : Ev.trapped ∉ allocs n bx := by
  induction bx generalizing n with
  | nil => simp [allocs]
  | cons b bs ih => simp [allocs, ih]

theorem trapped_frees (l : List Nat) : Ev.trapped ∉ frees l := by simp [frees]

theorem owned_lt {s : State} (h : Inv K E b narrow s) (hd : s.dead = false) {r : Nat} (hr : r ∈ s.stack.flatMap Frame.owned) : r < s.boxes := by
  have := (h.owned hd r).mpr hr
  rcases Nat.lt_or_ge r s.boxes with hl | hl
  · exact hl
  · exact absurd (fine_holds h.fine r hl) this

theorem mem_owned {stack : List Frame} {f : Frame} (hf : f ∈ stack) {r : Nat} (hr : r ∈ f.owned) : r ∈ stack.flatMap Frame.owned :=
  List.mem_flatMap.mpr ⟨f, hf, hr⟩

theorem inv_trap {s : State} (h : Inv K E b narrow s) (hd : s.dead = false) (bx : List (List UInt8)) :
    Inv K E b narrow (State.trap { s with boxes := s.boxes + bx.length } (allocs s.boxes bx)) := by
  refine ⟨?_, fun h => (nomatch h), h.nodup, fun f hf => ?_, ?_⟩
  · exact fine_quiet (fine_allocs bx h.fine) rfl
  · refine frameOk_of (h.frames f hf) fun r hr => ?_
    show holds (s.log ++ allocs s.boxes bx ++ [.trapped]) r = _
    rw [holds_quiet _ rfl, holds_allocs]
    rw [if_neg]
    have := owned_lt h hd (mem_owned hf hr)
    omega
  · simp [State.trap]

theorem inv_trap_nil {s : State} (h : Inv K E b narrow s) (hd : s.dead = false) : Inv K E b narrow (s.trap []) := by
  have := inv_trap h hd []
  simpa [State.trap, allocs] using this

theorem range'_nodup (n len : Nat) : (List.range' n len).Nodup := List.nodup_range'

theorem agrees_allocs {log : List Ev} {n : Nat} {bx : List (List UInt8)} {mem : Nat → Option (List UInt8)}
    (hm : ∀ r ∈ List.range' n bx.length, mem r = holds (log ++ allocs n bx) r) : Agrees mem n bx := by
  intro i bs hi
  have hl : i < bx.length := by
    rcases Nat.lt_or_ge i bx.length with hl | hl
    · exact hl
    · rw [List.getElem?_eq_none hl] at hi; cases hi
  rw [hm (n + i) (by simp [List.mem_range'_1]; omega), holds_allocs, if_pos (by omega)]
  have : n + i - n = i := by omega
  rw [this]; exact hi

theorem inv_enter {s : State} (h : Inv K E b narrow s) (hd : s.dead = false) (params : List JTy) (ret : JTy) (worker : Bool) (js : List Js) :
    Inv K E b narrow (stepEnter K E b narrow s params ret worker js) := by
  unfold stepEnter
  dsimp only
  generalize hc : argsW K E b narrow params js s.boxes = c
  obtain ⟨o, bx⟩ := c
  have hfa := fine_allocs bx h.fine
  have hlive : ∀ r ∈ List.range' s.boxes bx.length, holds (s.log ++ allocs s.boxes bx) r ≠ none := by
    intro r hr
    rw [List.mem_range'_1] at hr
    rw [holds_allocs, if_pos (by omega), List.getElem?_eq_getElem (by omega)]
    simp
  cases o with
  | ok args =>
    refine ⟨fine_quiet hfa rfl, fun _ r => ?_, ?_, fun f hf => ?_, ?_⟩
    · dsimp only
      rw [holds_quiet _ rfl, holds_allocs, List.flatMap_cons, List.mem_append]
      simp only [Frame.owned, List.mem_range'_1]
      by_cases hr : s.boxes ≤ r ∧ r < s.boxes + bx.length
      · rw [if_pos hr, List.getElem?_eq_getElem (by omega)]
        simp [hr]
      · rw [if_neg hr, h.owned hd r]
        simp [hr]
    · dsimp only
      rw [List.flatMap_cons, List.nodup_append]
      refine ⟨range'_nodup _ _, h.nodup, fun a ha c hc' => ?_⟩
      have := owned_lt h hd hc'
      simp only [Frame.owned, List.mem_range'_1] at ha
      omega
    · rcases List.mem_cons.mp hf with rfl | hf
      · have hr := argsW_reads K E b narrow params js s.boxes args (by rw [hc])
        obtain ⟨vals, hv⟩ := hr
        rw [hc] at hv
        refine ⟨vals, fun mem hm => hv mem (agrees_allocs (log := s.log) fun r hr => ?_), fun hK ht => ?_⟩
        · rw [hm r hr, holds_quiet _ rfl]
        · have hg := argsW_typed (b := b) (narrow := narrow) hK params js ht s.boxes
          rw [hc] at hg
          cases hf : fromArgs E b narrow params js with
          | ok vals' =>
            rw [hf] at hg
            obtain ⟨v, hv', hr'⟩ := hg
            cases hv'
            have hag : Agrees (holds (s.log ++ allocs s.boxes bx)) s.boxes bx := agrees_allocs fun _ _ => rfl
            have e1 := hv _ hag
            have e2 := hr' _ hag
            rw [e1] at e2; cases e2; rfl
          | err e => rw [hf] at hg; cases hg
          | panic => rw [hf] at hg; cases hg
      · refine frameOk_of (h.frames f hf) fun r hr => ?_
        show holds (s.log ++ allocs s.boxes bx ++ [.entered args]) r = _
        rw [holds_quiet _ rfl, holds_allocs, if_neg]
        have := owned_lt h hd (mem_owned hf hr)
        omega
    · rw [show (Ev.trapped ∈ s.log ++ allocs s.boxes bx ++ [.entered args]) = _ from rfl]
      simp [trapped_allocs, h.dead]
  | err e =>
    have hkeep : ∀ r, holds (s.log ++ allocs s.boxes bx ++ frees (List.range' s.boxes bx.length)) r = holds s.log r := by
      intro r
      rw [holds_frees, holds_allocs]
      simp only [List.mem_range'_1]
      by_cases hr : s.boxes ≤ r ∧ r < s.boxes + bx.length
      · rw [if_pos hr, fine_holds h.fine r hr.1]
      · rw [if_neg hr, if_neg hr]
    refine ⟨fine_quiet (fine_frees _ hfa (range'_nodup _ _) hlive) rfl, fun _ r => ?_, h.nodup, fun f hf => ?_, ?_⟩
    · dsimp only
      rw [holds_quiet _ rfl, hkeep]; exact h.owned hd r
    · refine frameOk_of (h.frames f hf) fun r hr => ?_
      show holds (s.log ++ allocs s.boxes bx ++ frees (List.range' s.boxes bx.length) ++ [.threw e]) r = _
      rw [holds_quiet _ rfl, hkeep]
    · simp [trapped_allocs, trapped_frees, h.dead]
  | trap => exact inv_trap h hd bx

theorem inv_pop {s : State} (h : Inv K E b narrow s) (hd : s.dead = false) {f : Frame} {stack : List Frame} (hs : s.stack = f :: stack)
    {e : Ev} (he : e.quiet = true) (ht : e ≠ .trapped) : Inv K E b narrow { s with stack, log := s.log ++ frees f.owned ++ [e] } := by
  have hn := h.nodup
  rw [hs, List.flatMap_cons, List.nodup_append] at hn
  have hdis : ∀ r ∈ stack.flatMap Frame.owned, r ∉ f.owned := fun r h1 h2 => hn.2.2 r h2 r h1 rfl
  have hl : ∀ r ∈ f.owned, holds s.log r ≠ none := fun r hr => (h.owned hd r).mpr (by rw [hs]; exact mem_owned (by simp) hr)
  refine ⟨fine_quiet (fine_frees _ h.fine hn.1 hl) he, fun _ r => ?_, hn.2.1, fun g hg => ?_, ?_⟩
  · dsimp only
    rw [holds_quiet _ he, holds_frees]
    by_cases hr : r ∈ f.owned
    · rw [if_pos hr]
      simp only [ne_eq, not_true_eq_false, false_iff]
      exact fun h => hdis r h hr
    · rw [if_neg hr, h.owned hd r, hs, List.flatMap_cons, List.mem_append]
      simp [hr]
  · refine frameOk_of (h.frames g (by rw [hs]; exact List.mem_cons_of_mem _ hg)) fun r hr => ?_
    show holds (s.log ++ frees f.owned ++ [e]) r = _
    rw [holds_quiet _ he, holds_frees, if_neg (hdis r (mem_owned hg hr))]
  · have : Ev.trapped ≠ e := fun h => ht h.symm
    simp [trapped_frees, h.dead, this]

variable {at_ : Nat → Nat}

theorem inv_leave {s : State} (h : Inv K E b narrow s) (hd : s.dead = false) (v : WVal) : Inv K E b narrow (stepLeave E b at_ s v) := by
  unfold stepLeave
  split
  · rename_i ret worker cleanup params js args stack hs
    split
    · exact inv_pop h hd hs rfl (by simp)
    · exact inv_pop h hd hs rfl (by simp)
    · exact inv_trap_nil h hd
  · exact h

theorem inv_call {s : State} (h : Inv K E b narrow s) (hd : s.dead = false) (null : Bool) (params : List JTy) (ret : JTy) (args : List WVal) :
    Inv K E b narrow (stepCall E b at_ s null params ret args) := by
  unfold stepCall
  split
  · split
    · exact inv_trap_nil h hd
    · split
      · rename_i hs _ _ js _
        refine ⟨fine_quiet h.fine rfl, fun _ r => ?_, by simpa [Frame.owned] using h.nodup, fun f hf => ?_, ?_⟩
        · dsimp only
          rw [holds_quiet _ rfl, h.owned hd r]; simp [Frame.owned]
        · rcases List.mem_cons.mp hf with rfl | hf
          · trivial
          · exact frameOk_of (h.frames f hf) fun r _ => holds_quiet _ rfl r
        · simp [h.dead]
      · exact inv_trap_nil h hd
  · exact h

theorem inv_finish {s : State} (h : Inv K E b narrow s) (hd : s.dead = false) (r : Option Js) : Inv K E b narrow (stepFinish K E b narrow s r) := by
  unfold stepFinish
  split
  · rename_i ret stack hs
    split
    · exact inv_trap_nil h hd
    · rename_i j
      dsimp only
      generalize hc : fromW K E b narrow ret j s.boxes = c
      obtain ⟨o, bx⟩ := c
      have hfa := fine_allocs bx h.fine
      have hlive : ∀ r ∈ List.range' s.boxes bx.length, holds (s.log ++ allocs s.boxes bx) r ≠ none := by
        intro r hr
        rw [List.mem_range'_1] at hr
        rw [holds_allocs, if_pos (by omega), List.getElem?_eq_getElem (by omega)]
        simp
      have hkeep : ∀ r, holds (s.log ++ allocs s.boxes bx ++ frees (List.range' s.boxes bx.length)) r = holds s.log r := by
        intro r
        rw [holds_frees, holds_allocs]
        simp only [List.mem_range'_1]
        by_cases hr : s.boxes ≤ r ∧ r < s.boxes + bx.length
        · rw [if_pos hr, fine_holds h.fine r hr.1]
        · rw [if_neg hr, if_neg hr]
      cases o with
      | ok v =>
        have hn := h.nodup
        rw [hs, List.flatMap_cons] at hn
        refine ⟨fine_quiet (fine_frees _ hfa (range'_nodup _ _) hlive) rfl, fun _ r => ?_, by simpa [Frame.owned] using hn, fun f hf => ?_, ?_⟩
        · dsimp only
          rw [holds_quiet _ rfl, hkeep, h.owned hd r, hs]; simp [Frame.owned]
        · refine frameOk_of (h.frames f (by rw [hs]; exact List.mem_cons_of_mem _ hf)) fun r hr => ?_
          show holds (s.log ++ allocs s.boxes bx ++ frees (List.range' s.boxes bx.length) ++ [.returned v]) r = _
          rw [holds_quiet _ rfl, hkeep]
        · simp [trapped_allocs, trapped_frees, h.dead]
      | err e => exact inv_trap h hd bx
      | trap => exact inv_trap h hd bx
  · exact h

theorem inv_step {s : State} (h : Inv K E b narrow s) (op : Op) : Inv K E b narrow (step K E b narrow at_ s op) := by
  unfold step
  cases hd : s.dead with
  | true => exact h
  | false =>
    simp only [Bool.false_eq_true, if_false]
    cases op with
    | enter params ret worker js =>
      dsimp only
      split
      · exact inv_enter h hd params ret worker js
      · exact h
    | leave v => exact inv_leave h hd v
    | call null params ret args => exact inv_call h hd null params ret args
    | finish r => exact inv_finish h hd r

theorem inv_run (ops : List Op) : Inv K E b narrow (run K E b narrow at_ ops) := by
  unfold run
  have h0 : Inv K E b narrow ({} : State) := ⟨fine_nil, fun _ r => by simp [holds_nil], by simp, fun f hf => by simp at hf, by simp⟩
  generalize ({} : State) = s at h0
  induction ops generalizing s with
  | nil => exact h0
  | cons op ops ih => exact ih _ (inv_step h0 op)
end

end Verif.Wasm
