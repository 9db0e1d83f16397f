import Verif.Headers.Out
import Verif.Headers.DocsSpec
/-! # Lemmas about `out!` and comments -/
namespace Verif.Headers
open Text

theorem splitInclusive_nl (s r : Text) :
    splitInclusive (s ++ '\n' :: r) = (split '\n' s).map (· ++ ['\n']) ++ splitInclusive r := by
  induction s with
  | nil => simp [splitInclusive, Text.split]
  | cons c cs ih =>
    rw [List.cons_append, splitInclusive, Text.split]
    by_cases h : c = '\n'
    · simp [h, ih]
    · rw [if_neg h, if_neg h, ih]
      cases hs : Text.split '\n' cs with
      | nil => exact absurd hs (split_ne_nil _ _)
      | cons p ps => simp

theorem isWs_nl : isWs '\n' = true := by decide
theorem isWs_sp : isWs ' ' = true := by decide

theorem trimEnd_ws {s : Text} {c : Char} (h : isWs c = true) : trimEnd (s ++ [c]) = trimEnd s := by
  simp [trimEnd, h]

theorem trimEnd_nonws (a b : Text) {c : Char} (h : isWs c = false) :
    trimEnd (a ++ c :: b) = a ++ c :: trimEnd b := by
  have hd : ∀ l m : Text, (l ++ c :: m).dropWhile isWs = l.dropWhile isWs ++ c :: m := by
    intro l m
    induction l with
    | nil => simp [h]
    | cons x xs ih =>
      rw [List.cons_append, List.dropWhile_cons, List.dropWhile_cons]
      split
      · exact ih
      · rfl
  simp [trimEnd, hd]

theorem trimEnd_prefix (s : Text) : trimEnd s <+: s := by
  have : (s.reverse.dropWhile isWs) <:+ s.reverse := List.dropWhile_suffix _
  have := List.reverse_prefix.2 this
  simpa [trimEnd] using this

theorem outPiece_nl (p : Text) : outPiece (p ++ ['\n']) = trimEnd p ++ ['\n'] := by
  simp [outPiece, endsNl, trimEnd_ws isWs_nl]

/-- What `out!` writes: every line, cut at its own newlines, without trailing white space. -/
theorem flat_outLines (d : Nat) (ls : List Text) :
    flat (outLines d ls) =
      ls.flatMap fun l => (split '\n' (indent d ++ l)).flatMap fun p => trimEnd p ++ ['\n'] := by
  rw [flat, outLines]
  induction ls with
  | nil => rfl
  | cons l ls ih =>
    rw [List.flatMap_cons, List.flatMap_cons, List.append_assoc, List.singleton_append, splitInclusive_nl,
      List.map_append, List.flatten_append, ih]
    congr 1
    rw [List.map_map, List.flatMap]
    congr 1
    apply List.map_congr_left
    intro p _
    exact outPiece_nl p

theorem nl_notMem_indent (d : Nat) : '\n' ∉ indent d := by
  intro h
  have := (List.mem_replicate.1 h).2
  revert this; decide

/-- A line without newline, whose last visible character is inside `b`. -/
theorem flat_outLine (d : Nat) {l : Text} (h : '\n' ∉ l) :
    flat (outLines d [l]) = trimEnd (indent d ++ l) ++ ['\n'] := by
  rw [flat_outLines, List.flatMap_cons, List.flatMap_nil, List.append_nil, split_of_not_mem]
  · simp
  · simp only [List.mem_append, not_or]
    exact ⟨nl_notMem_indent d, h⟩

theorem flat_outLine_visible (d : Nat) {l : Text} (h : '\n' ∉ l) (hl : (l.getLast?.all fun c => !isWs c) = true)
    (hne : l ≠ [] := by decide) :
    flat (outLines d [l]) = indent d ++ l ++ ['\n'] := by
  rw [flat_outLine _ h, trimEnd_eq]
  intro c hc
  rw [List.getLast?_append] at hc
  cases hg : l.getLast? with
  | none => exact absurd (List.getLast?_eq_none_iff.1 hg) hne
  | some y => rw [hg] at hc hl; simp at hc hl; rw [← hc]; exact hl

theorem flat_append (a b : List Text) : flat (a ++ b) = flat a ++ flat b := by simp [flat]

theorem flat_flatMap {α} (l : List α) (f : α → List Text) : flat (l.flatMap f) = l.flatMap fun x => flat (f x) := by
  induction l with
  | nil => rfl
  | cons x xs ih => simp [flat_append, ih]

/-! ### Block comments -/

/-- `*/` occurs. -/
def has : Text → Bool
  | '*' :: '/' :: _ => true
  | _ :: cs => has cs
  | [] => false

theorem has_cons_ne {c : Char} (cs : Text) (h : c ≠ '*') : has (c :: cs) = has cs := by
  rw [has]; intro rest e; exact absurd e h

theorem has_star_ne {c : Char} (cs : Text) (h : c ≠ '/') : has ('*' :: c :: cs) = has (c :: cs) := by
  rw [has]; intro rest _ e; exact absurd (List.cons.inj e).1 h

theorem has_sep (a b : Text) {c : Char} (h : c ≠ '*') (h' : c ≠ '/') : has (a ++ c :: b) = (has a || has b) := by
  fun_induction has a with
  | case1 rest => simp [has]
  | case2 x xs hx ih =>
    by_cases e : x = '*'
    · subst e
      cases xs with
      | nil => simp [has_star_ne _ h', has_cons_ne _ h, has]
      | cons y ys =>
        have hy : y ≠ '/' := fun e => hx ys rfl (by rw [e])
        rw [List.cons_append, List.cons_append, has_star_ne _ hy, ← List.cons_append, ih]
    · rw [List.cons_append, has_cons_ne _ e, ih]
  | case3 => simp [has_cons_ne _ h]

theorem has_iff (s : Text) : has s = true ↔ Contains s ['*', '/'] := by
  fun_induction has s with
  | case1 rest => simp only [true_iff]; exact ⟨[], rest, by simp⟩
  | case2 x xs hx ih =>
    rw [ih]
    constructor
    · rintro ⟨a, b, e⟩; exact ⟨x :: a, b, by simp [e]⟩
    · rintro ⟨a, b, e⟩
      cases a with
      | nil => simp at e; exact absurd e.2 (by rw [e.1] at hx; simpa using hx b)
      | cons y ys => simp at e; exact ⟨ys, b, by simp [e.2]⟩
  | case3 => simp only [Bool.false_eq_true, false_iff]; rintro ⟨a, b, e⟩; simp at e

theorem has_infix {a b : Text} (h : has b = false) (hab : ∃ x y, b = x ++ a ++ y) : has a = false := by
  rw [Bool.eq_false_iff, Ne, has_iff] at *
  rintro ⟨u, v, rfl⟩
  obtain ⟨x, y, rfl⟩ := hab
  exact h ⟨x ++ u, v ++ y, by simp⟩

theorem block_end (w r : Text) (h : has w = false) : code .block (w ++ '*' :: '/' :: r) = code .code r := by
  fun_induction has w with
  | case1 => cases h
  | case2 x xs hx ih =>
    rw [← ih h, List.cons_append, code]
    rintro r' e e'
    subst e
    cases xs with
    | nil => simp at e'
    | cons y ys =>
      simp at e'
      exact hx ys rfl (by rw [e'.1])
  | case3 => simp [code]

theorem has_trimEnd {s : Text} (h : has s = false) : has (trimEnd s) = false := by
  obtain ⟨y, e⟩ := trimEnd_prefix s
  exact has_infix h ⟨[], y, by simp [e]⟩

theorem mem_split_infix {c : Char} {s p : Text} (h : p ∈ split c s) : ∃ x y, s = x ++ p ++ y := by
  induction s generalizing p with
  | nil => simp [Text.split] at h; exact ⟨[], [], by simp [h]⟩
  | cons a as ih =>
    rw [Text.split] at h
    split at h
    · rcases List.mem_cons.1 h with rfl | h
      · exact ⟨[], a :: as, by simp⟩
      · obtain ⟨x, y, rfl⟩ := ih h; exact ⟨a :: x, y, by simp⟩
    · split at h
      next q qs hq =>
        rcases List.mem_cons.1 h with rfl | h
        · obtain ⟨x, y, e⟩ := ih (p := q) (by simp [hq])
          -- the first piece is a prefix
          have : ∃ y, as = q ++ y := by
            clear ih e x y h
            rename_i hne _
            clear hne
            induction as generalizing q qs with
            | nil => simp [Text.split] at hq; exact ⟨[], by simp [hq.1]⟩
            | cons b bs ihb =>
              rw [Text.split] at hq
              split at hq
              · simp at hq; exact ⟨b :: bs, by simp [hq.1]⟩
              · split at hq
                next q' qs' hq' =>
                  obtain ⟨y, hy⟩ := ihb q' qs' hq'
                  simp at hq
                  exact ⟨y, by rw [← hq.1, hy]; simp⟩
                next hn => exact absurd hn (split_ne_nil _ _)
          obtain ⟨y, rfl⟩ := this
          exact ⟨[], y, by simp⟩
        · obtain ⟨x, y, rfl⟩ := ih (p := p) (by simp [hq, h]); exact ⟨a :: x, y, by simp⟩
      next hn => exact absurd hn (split_ne_nil _ _)

theorem has_pieces (ps : List Text) (r : Text) (hp : ∀ p ∈ ps, has p = false) (hr : has r = false) :
    has ((ps.flatMap fun p => trimEnd p ++ ['\n']) ++ r) = false := by
  induction ps with
  | nil => simpa using hr
  | cons p ps ih =>
    rw [List.flatMap_cons, List.append_assoc, List.append_assoc, List.singleton_append,
      has_sep _ _ (by decide) (by decide), has_trimEnd (hp p (by simp)), ih (fun q hq => hp q (by simp [hq]))]
    rfl

theorem has_indent (d : Nat) (s : Text) : has (indent d ++ s) = has s := by
  rw [indent]
  generalize d * 4 = n
  induction n with
  | zero => rfl
  | succ n ih => rw [List.replicate_succ, List.cons_append, has_cons_ne _ (by decide), ih]

theorem has_outLine (d : Nat) (l r : Text) (hl : has l = false) (hr : has r = false) :
    has (flat (outLines d [l]) ++ r) = false := by
  rw [flat_outLines, List.flatMap_cons, List.flatMap_nil, List.append_nil]
  apply has_pieces _ _ _ hr
  intro p hp
  exact has_infix (by rw [has_indent]; exact hl) (mem_split_infix hp)

theorem code_indent (d : Nat) (s : Text) : code .code (indent d ++ s) = indent d ++ code .code s := by
  rw [indent]
  generalize d * 4 = n
  induction n with
  | zero => rfl
  | succ n ih =>
    rw [List.replicate_succ, List.cons_append, List.cons_append, ← ih]
    rw [code] <;> (intros; simp_all)

theorem line_end (w r : Text) (h : ∀ c ∈ w, isTerminator c = false) :
    code .line (w ++ '\n' :: r) = '\n' :: code .code r := by
  induction w with
  | nil => simp [code, show isTerminator '\n' = true by decide]
  | cons c cs ih =>
    rw [List.cons_append, code, if_neg (by simp [h c (by simp)])]
    exact ih fun c hc => h c (by simp [hc])

theorem mem_trimStart {c : Char} {s : Text} (h : c ∈ trimStart s) : c ∈ s :=
  (List.dropWhile_suffix _).subset h

theorem mem_trimEnd {c : Char} {s : Text} (h : c ∈ trimEnd s) : c ∈ s := (trimEnd_prefix s).subset h

theorem mem_trim {c : Char} {s : Text} (h : c ∈ trim s) : c ∈ s := mem_trimStart (mem_trimEnd h)

theorem trim_infix (s : Text) : ∃ x y, s = x ++ trim s ++ y := by
  obtain ⟨x, hx⟩ : trimStart s <:+ s := List.dropWhile_suffix _
  obtain ⟨y, hy⟩ := trimEnd_prefix (trimStart s)
  exact ⟨x, y, by rw [trim, List.append_assoc, hy, hx]⟩

/-! ### Backticks -/

theorem unsegs_segs (s : Text) : unsegs (segs s) = s := by
  induction s with
  | nil => rfl
  | cons c cs ih =>
    rw [segs]
    unfold Seg.push
    split
    next h =>
      subst h
      split
      next n rest e => rw [e, unsegs] at ih; rw [unsegs, List.replicate_succ, List.cons_append, ih]
      next => rw [unsegs, ih]; rfl
    next => rw [unsegs, ih]

/-- Adjacent runs are merged, runs are not empty, other characters are not backticks. -/
def SegsOk : List Seg → Prop
  | [] => True
  | .run n :: gs => 0 < n ∧ (∀ m rest, gs ≠ .run m :: rest) ∧ SegsOk gs
  | .ch c :: gs => c ≠ '`' ∧ SegsOk gs

theorem segs_ok (s : Text) : SegsOk (segs s) := by
  induction s with
  | nil => trivial
  | cons c cs ih =>
    rw [segs]
    unfold Seg.push
    split
    next h =>
      split
      next n rest e => rw [e] at ih; exact ⟨by omega, ih.2⟩
      next hne => exact ⟨by omega, hne, ih⟩
    next h => exact ⟨h, ih⟩

theorem csBackticks_ch {c : Char} (k : Nat) (cs : Text) (h : c ≠ '`') :
    csBackticks k (c :: cs) = c :: csBackticks k cs := by
  rw [csBackticks] <;> (intros; simp_all)

/-- The text after a run does not start with a backtick. -/
theorem unsegs_head {gs : List Seg} (h : SegsOk gs) (hr : ∀ m rest, gs ≠ .run m :: rest) :
    ∀ cs, unsegs gs ≠ '`' :: cs := by
  intro cs e
  cases gs with
  | nil => simp [unsegs] at e
  | cons g gs =>
    cases g with
    | run n => exact hr n gs rfl
    | ch c => simp [unsegs] at e; exact h.1 e.1

theorem csBackticks_run (k n : Nat) (rest : Text) (hn : n % 3 ≠ 1) (hh : ∀ cs, rest ≠ '`' :: cs) :
    csBackticks k (List.replicate n '`' ++ rest) = List.replicate n '`' ++ csBackticks k rest := by
  induction n using Nat.strongRecOn with
  | _ n ih =>
    match n, hn with
    | 0, _ => rfl
    | 2, _ =>
      cases rest with
      | nil => rfl
      | cons c cs =>
        have hc : c ≠ '`' := fun e => hh cs (by rw [e])
        rw [csBackticks_ch _ _ hc]
        show csBackticks k ('`' :: '`' :: c :: cs) = _
        rw [csBackticks]; rfl
    | n + 3, hn =>
      have := ih n (by omega) (by omega)
      show csBackticks k ('`' :: '`' :: '`' :: (List.replicate n '`' ++ rest)) = _
      rw [csBackticks, this]; rfl

theorem csBackticks_one (k : Nat) (rest : Text) (hh : ∀ cs, rest ≠ '`' :: cs) :
    csBackticks k ('`' :: rest) = (if k % 2 = 0 then t "<c>" else t "</c>") ++ csBackticks (k + 1) rest := by
  cases rest with
  | nil => simp [csBackticks]
  | cons c cs =>
    have hc : c ≠ '`' := fun e => hh cs (by rw [e])
    rw [csBackticks] <;> (intros; simp_all)

theorem markup_run (k : Nat) {n : Nat} (gs : List Seg) (h : n ≠ 1) :
    markup k (.run n :: gs) = List.replicate n '`' ++ markup k gs := by
  rw [markup]; exact h

theorem csBackticks_segs (gs : List Seg) (k : Nat) (h : SegsOk gs)
    (hr : ∀ n, .run n ∈ gs → n = 1 ∨ n % 3 ≠ 1) : csBackticks k (unsegs gs) = markup k gs := by
  induction gs generalizing k with
  | nil => rfl
  | cons g gs ih =>
    cases g with
    | ch c =>
      rw [unsegs, markup, csBackticks_ch _ _ h.1, ih _ h.2 (fun n hn => hr n (by simp [hn]))]
    | run n =>
      have hh := unsegs_head h.2.2 h.2.1
      have ih' := fun k => ih k h.2.2 (fun n hn => hr n (by simp [hn]))
      by_cases e : n = 1
      · subst e
        rw [unsegs, markup]
        show csBackticks k ('`' :: unsegs gs) = _
        rw [csBackticks_one _ _ hh, ih']
        rfl
      · rw [unsegs, markup_run _ _ e, csBackticks_run _ _ _ ((hr n (by simp)).resolve_left e) hh, ih']

theorem markup_no_singles (k : Nat) (gs : List Seg) (h : .run 1 ∉ gs) : markup k gs = unsegs gs := by
  induction gs with
  | nil => rfl
  | cons g gs ih =>
    simp only [List.mem_cons, not_or] at h
    cases g with
    | ch c => rw [markup, unsegs, ih h.2]
    | run n => rw [markup_run _ _ (fun e => h.1 (by rw [e])), unsegs, ih h.2]

theorem not_run_of_not_mem {s : Text} (h : '`' ∉ s) (n : Nat) : .run n ∉ segs s := by
  induction s with
  | nil => simp [segs]
  | cons c cs ih =>
    simp only [List.mem_cons, not_or] at h
    rw [segs]; unfold Seg.push; rw [if_neg (fun e => h.1 e.symm)]
    simpa using ih h.2

theorem tags_ne {c : Char} (cs : Text) (h : c ≠ '<') : tags (c :: cs) = tags cs := by
  rw [tags] <;> (intros; simp_all)

theorem tags_replicate (n : Nat) (cs : Text) : tags (List.replicate n '`' ++ cs) = tags cs := by
  induction n with
  | zero => rfl
  | succ n ih => rw [List.replicate_succ, List.cons_append, tags_ne _ (by decide), ih]

/-- `m` tags, alternating, the first being opening if `k` is even. -/
def alternate (k : Nat) : Nat → List Tag
  | 0 => []
  | m + 1 => (if k % 2 = 0 then .opening else .closing) :: alternate (k + 1) m

theorem alternate_even (m : Nat) : ∀ k, k % 2 = 0 →
    alternate k (2 * m) = (List.replicate m [Tag.opening, .closing]).flatten := by
  induction m with
  | zero => intros; rfl
  | succ m ih =>
    intro k hk
    rw [show 2 * (m + 1) = 2 * m + 1 + 1 by omega, alternate, alternate, if_pos hk, if_neg (by omega),
      ih _ (by omega), List.replicate_succ]
    rfl

theorem tags_markup (k : Nat) (gs : List Seg) (h : .ch '<' ∉ gs) :
    tags (markup k gs) = alternate k (singles gs) := by
  induction gs generalizing k with
  | nil => rfl
  | cons g gs ih =>
    simp only [List.mem_cons, not_or] at h
    cases g with
    | ch c =>
      rw [markup, tags_ne _ (fun e => h.1 (by rw [e])), ih _ h.2]
      simp [singles]
    | run n =>
      by_cases e : n = 1
      · subst e
        have : singles (.run 1 :: gs) = singles gs + 1 := by simp [singles]
        rw [markup, this, alternate, ← ih _ h.2]
        split <;> rfl
      · rw [markup_run _ _ e, tags_replicate, ih _ h.2]
        simp [singles, e]

theorem mem_segs {s : Text} {c : Char} (h : .ch c ∈ segs s) : c ∈ s := by
  induction s with
  | nil => simp [segs] at h
  | cons x xs ih =>
    rw [segs] at h
    unfold Seg.push at h
    split at h
    · split at h
      next n rest e => simp at h; exact List.mem_cons_of_mem _ (ih (by simp [e, h]))
      next => simp at h; exact List.mem_cons_of_mem _ (ih h)
    · simp at h
      rcases h with rfl | h
      · simp
      · exact List.mem_cons_of_mem _ (ih h)

theorem csBackticks_chars (k : Nat) (s : Text) : ∀ c ∈ csBackticks k s, c ∈ s ∨ c ∈ t "</c>" := by
  fun_induction csBackticks k s <;> intro x hx <;> simp_all [t] <;> grind

theorem csLine_chars (s : Text) : ∀ c ∈ csLine s, c ∈ s ∨ c ∈ t "</c>" := by
  intro c hc
  rw [csLine] at hc
  split at hc
  · exact csBackticks_chars _ _ c hc
  · exact .inl hc

theorem csBackticks_run1 (k n : Nat) (rest : Text) (hn : n % 3 = 1) (hh : ∀ cs, rest ≠ '`' :: cs) :
    csBackticks k (List.replicate n '`' ++ rest) = List.replicate (n - 1) '`' ++ ((if k % 2 = 0 then t "<c>" else t "</c>") ++ csBackticks (k + 1) rest) := by
  induction n using Nat.strongRecOn with
  | _ n ih =>
    match n, hn with
    | 1, _ => exact csBackticks_one k rest hh
    | n + 3, hn =>
      have := ih n (by omega) (by omega)
      obtain ⟨m, rfl⟩ : ∃ m, n = m + 1 := ⟨n - 1, by omega⟩
      show csBackticks k ('`' :: '`' :: '`' :: (List.replicate (m + 1) '`' ++ rest)) = _
      rw [csBackticks, this]; rfl

theorem csBackticks_treated (gs : List Seg) (k : Nat) (h : SegsOk gs) : csBackticks k (unsegs gs) = markup k (asTreated gs) := by
  induction gs generalizing k with
  | nil => rfl
  | cons g gs ih =>
    cases g with
    | ch c => rw [unsegs, asTreated, markup, csBackticks_ch _ _ h.1, ih _ h.2]
    | run n =>
      have hh := unsegs_head h.2.2 h.2.1
      have ih' := fun k => ih k h.2.2
      rw [unsegs, asTreated]
      by_cases e : n % 3 = 1
      · rw [csBackticks_run1 _ _ _ e hh, ih']
        by_cases e1 : n = 1
        · subst e1; rfl
        · have hc : n % 3 = 1 ∧ n ≠ 1 := ⟨e, e1⟩
          simp only [if_pos hc]
          show _ = markup k (.run (n - 1) :: .run 1 :: asTreated gs)
          rw [markup_run _ _ (by omega), markup]; rfl
      · rw [if_neg (fun c => e c.1), csBackticks_run _ _ _ e hh, ih']
        show _ = markup k (.run n :: asTreated gs)
        rw [markup_run _ _ (by omega)]

theorem asTreated_none {gs : List Seg} (h : ∀ n, .run n ∉ gs) : asTreated gs = gs := by
  induction gs with
  | nil => rfl
  | cons g gs ih =>
    cases g with
    | ch c => rw [asTreated, ih fun n hn => h n (List.mem_cons_of_mem _ hn)]
    | run n => exact absurd (List.mem_cons_self ..) (h n)

theorem mem_asTreated {c : Char} {gs : List Seg} (h : .ch c ∈ asTreated gs) : .ch c ∈ gs := by
  induction gs with
  | nil => exact h
  | cons g gs ih =>
    cases g with
    | ch d =>
      rw [asTreated] at h
      rcases List.mem_cons.1 h with h | h
      · rw [h]; exact List.mem_cons_self ..
      · exact List.mem_cons_of_mem _ (ih h)
    | run n =>
      rw [asTreated] at h
      rcases List.mem_append.1 h with h | h
      · split at h <;> simp at h
      · exact List.mem_cons_of_mem _ (ih h)

theorem singles_treated (gs : List Seg) : singles (asTreated gs) = gs.countP fun g => match g with | .run n => n % 3 = 1 | _ => false := by
  induction gs with
  | nil => rfl
  | cons g gs ih =>
    cases g with
    | ch c => simpa [asTreated, singles] using ih
    | run n =>
      rw [asTreated, singles, List.countP_append, List.countP_cons]
      have : (asTreated gs).countP (· = .run 1) = _ := ih
      rw [this, Nat.add_comm]
      congr 1
      by_cases e : n % 3 = 1 <;> by_cases e1 : n = 1
      · subst e1; rfl
      · rw [if_pos ⟨e, e1⟩]; simp [e, show n - 1 ≠ 1 by omega]
      · omega
      · rw [if_neg (fun c => e c.1)]; simp [e, e1]

end Verif.Headers
