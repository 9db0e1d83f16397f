import Verif.CharP.SharedSpec

/-! # Reference counts of shared C strings, over all histories -/
namespace Verif.CharP.Shared

/-- Number of variables of the list pointing to block `k`. -/
def cnt (l : List (Option Nat)) (k : Nat) : Nat := l.count (some k)

theorem cnt_push (l : List (Option Nat)) (p k : Nat) :
    cnt (l ++ [some p]) k = cnt l k + if p = k then 1 else 0 := by
  simp [cnt, List.count_append, List.count_singleton]

theorem cnt_set {l : List (Option Nat)} {j p : Nat} (h : (l[j]?).join = some p) (k : Nat) :
    cnt l k = cnt (l.set j none) k + if p = k then 1 else 0 := by
  induction l generalizing j with
  | nil => simp at h
  | cons x l ih =>
    cases j with
    | zero =>
      simp at h
      subst h
      simp [cnt, List.count_cons]
    | succ j =>
      have := ih (j := j) (by simpa using h)
      simp only [cnt, List.set_cons_succ, List.count_cons] at this ⊢
      omega

theorem cnt_pos {l : List (Option Nat)} {j p : Nat} (h : (l[j]?).join = some p) : 0 < cnt l p := by
  rw [cnt_set h]; simp

def dataAt (h : Heap) (k : Nat) : Option Bytes := (h[k]?).map (·.data)

structure Rel (s : State) (a : Abs) : Prop where
  refs : ∀ k b, s.heap[k]? = some b → b.refs = cnt s.shared k + cnt s.arcs k
  dom : ∀ k, s.heap.length ≤ k → cnt s.shared k + cnt s.arcs k = 0
  shared : ∀ i k : Nat, (s.shared[i]?).join = some k → ∃ d, (a.shared[i]?).join = some d ∧
    dataAt s.heap k = some (d ++ [0]) ∧ 0 ∉ d ∧ validUtf8 d = true
  arcs : ∀ i k : Nat, (s.arcs[i]?).join = some k → ∃ d, (a.arcs[i]?).join = some d ∧
    dataAt s.heap k = some (d ++ [0]) ∧ 0 ∉ d
  sharedN : ∀ i : Nat, (s.shared[i]?).join = none → (a.shared[i]?).join = none
  arcsN : ∀ i : Nat, (s.arcs[i]?).join = none → (a.arcs[i]?).join = none
  ls : s.shared.length = a.shared.length
  la : s.arcs.length = a.arcs.length

theorem Rel.init : Rel .init .init where
  refs := by intro k b h; simp [State.init] at h
  dom := by intro k _; simp [State.init, cnt]
  shared := by intro i k h; simp [State.init] at h
  arcs := by intro i k h; simp [State.init] at h
  sharedN := by intro i _; simp [Abs.init]
  arcsN := by intro i _; simp [Abs.init]
  ls := rfl
  la := rfl

theorem dataAt_push (h : Heap) (b : Blk) (k : Nat) (hk : k < h.length) :
    dataAt (h ++ [b]) k = dataAt h k := by simp [dataAt, List.getElem?_append_left hk]

theorem dataAt_last (h : Heap) (b : Blk) : dataAt (h ++ [b]) h.length = some b.data := by simp [dataAt]

theorem dataAt_lt {h : Heap} {k : Nat} {d : Bytes} (e : dataAt h k = some d) : k < h.length := by
  rcases Nat.lt_or_ge k h.length with h1 | h1
  · exact h1
  · simp [dataAt, List.getElem?_eq_none h1] at e

theorem dataAt_get {h : Heap} {k : Nat} {d : Bytes} (e : dataAt h k = some d) :
    ∃ b, h[k]? = some b ∧ b.data = d := by
  simp only [dataAt, Option.map_eq_some_iff] at e; exact e

/-- Effect of changing a count by `addRefs`. -/
theorem addRefs_ok {h : Heap} {i : Nat} {d : Bytes} {b : Blk} (e : h[i]? = some b) (hd : b.data = d)
    (hp : 0 < b.refs) (f : Nat → Nat) :
    addRefs h i d.length f = .ok (h.set i { b with refs := f b.refs }) := by
  simp [addRefs, e, hd, hp]

theorem dataAt_set {h : Heap} {i : Nat} {b : Blk} (e : h[i]? = some b) (n k : Nat) :
    dataAt (h.set i { b with refs := n }) k = dataAt h k := by
  unfold dataAt
  by_cases hk : i = k
  · subst hk
    have : i < h.length := by
      rcases Nat.lt_or_ge i h.length with h1 | h1
      · exact h1
      · rw [List.getElem?_eq_none h1] at e; cases e
    rw [List.getElem?_set_self this, e]; rfl
  · rw [List.getElem?_set_ne hk]

theorem get_set {h : Heap} {i k : Nat} {b b' : Blk} (e : h[i]? = some b) {n : Nat}
    (hb : (h.set i { b with refs := n })[k]? = some b') :
    (k = i ∧ b'.refs = n) ∨ (k ≠ i ∧ h[k]? = some b') := by
  by_cases hk : i = k
  · subst hk
    have : i < h.length := by
      rcases Nat.lt_or_ge i h.length with h1 | h1
      · exact h1
      · rw [List.getElem?_eq_none h1] at e; cases e
    rw [List.getElem?_set_self this] at hb
    cases hb; exact .inl ⟨rfl, rfl⟩
  · rw [List.getElem?_set_ne hk] at hb
    exact .inr ⟨fun e => hk e.symm, hb⟩

/-- New block owned by a new shared variable. -/
theorem Rel.addShared {s : State} {a : Abs} (R : Rel s a) {c : Bytes} (h0 : 0 ∉ c) (hu : validUtf8 c = true) :
    Rel ⟨s.heap ++ [⟨c ++ [0], 1⟩], s.shared ++ [some s.heap.length], s.arcs⟩ ⟨a.shared ++ [some c], a.arcs⟩ where
  refs k b hb := by
    rw [cnt_push]
    simp only at hb ⊢
    rcases Nat.lt_trichotomy k s.heap.length with h1 | h1 | h1
    · rw [List.getElem?_append_left h1] at hb
      rw [R.refs k b hb, if_neg (by omega)]; omega
    · subst h1
      simp at hb; subst hb
      have := R.dom s.heap.length (Nat.le_refl _)
      simp; omega
    · rw [List.getElem?_eq_none (by simp; omega)] at hb; cases hb
  dom k hk := by
    simp at hk
    rw [cnt_push, if_neg (by omega)]
    have := R.dom k (by omega); simp only at this ⊢; omega
  shared i k h := by
    simp only [join_push] at h ⊢
    split at h
    · rename_i hi
      cases h
      exact ⟨c, by simp [← R.ls, hi], dataAt_last _ _, h0, hu⟩
    · rename_i hi
      obtain ⟨d, h1, h2, h3⟩ := R.shared i k h
      exact ⟨d, by rw [← R.ls, if_neg hi]; exact h1, by rw [dataAt_push _ _ _ (dataAt_lt h2)]; exact h2, h3⟩
  arcs i k h := by
    obtain ⟨d, h1, h2, h3⟩ := R.arcs i k h
    exact ⟨d, h1, by simp only; rw [dataAt_push _ _ _ (dataAt_lt h2)]; exact h2, h3⟩
  sharedN i h := by
    simp only [join_push] at h ⊢
    split at h
    · cases h
    · rename_i hi; rw [← R.ls, if_neg hi]; exact R.sharedN i h
  arcsN := R.arcsN
  ls := by simp [R.ls]
  la := R.la

theorem Rel.addArc {s : State} {a : Abs} (R : Rel s a) {c : Bytes} (h0 : 0 ∉ c) :
    Rel ⟨s.heap ++ [⟨c ++ [0], 1⟩], s.shared, s.arcs ++ [some s.heap.length]⟩ ⟨a.shared, a.arcs ++ [some c]⟩ where
  refs k b hb := by
    rw [cnt_push]
    simp only at hb ⊢
    rcases Nat.lt_trichotomy k s.heap.length with h1 | h1 | h1
    · rw [List.getElem?_append_left h1] at hb
      rw [R.refs k b hb, if_neg (by omega)]; omega
    · subst h1
      simp at hb; subst hb
      have := R.dom s.heap.length (Nat.le_refl _)
      simp; omega
    · rw [List.getElem?_eq_none (by simp; omega)] at hb; cases hb
  dom k hk := by
    simp at hk
    rw [cnt_push, if_neg (by omega)]
    have := R.dom k (by omega); simp only at this ⊢; omega
  arcs i k h := by
    simp only [join_push] at h ⊢
    split at h
    · rename_i hi
      cases h
      exact ⟨c, by simp [← R.la, hi], dataAt_last _ _, h0⟩
    · rename_i hi
      obtain ⟨d, h1, h2, h3⟩ := R.arcs i k h
      exact ⟨d, by rw [← R.la, if_neg hi]; exact h1, by rw [dataAt_push _ _ _ (dataAt_lt h2)]; exact h2, h3⟩
  shared i k h := by
    obtain ⟨d, h1, h2, h3⟩ := R.shared i k h
    exact ⟨d, h1, by simp only; rw [dataAt_push _ _ _ (dataAt_lt h2)]; exact h2, h3⟩
  arcsN i h := by
    simp only [join_push] at h ⊢
    split at h
    · cases h
    · rename_i hi; rw [← R.la, if_neg hi]; exact R.arcsN i h
  sharedN := R.sharedN
  la := by simp [R.la]
  ls := R.ls

/-- A block allocated and released again (panic on text which is not UTF-8). -/
theorem Rel.leakFree {s : State} {a : Abs} (R : Rel s a) (c : Bytes) :
    Rel ⟨s.heap ++ [⟨c, 0⟩], s.shared, s.arcs⟩ a where
  refs k b hb := by
    simp only at hb ⊢
    rcases Nat.lt_trichotomy k s.heap.length with h1 | h1 | h1
    · rw [List.getElem?_append_left h1] at hb
      exact R.refs k b hb
    · subst h1
      simp at hb; subst hb
      have := R.dom s.heap.length (Nat.le_refl _)
      simp; omega
    · rw [List.getElem?_eq_none (by simp; omega)] at hb; cases hb
  dom k hk := by simp at hk; exact R.dom k (by omega)
  shared i k h := by
    obtain ⟨d, h1, h2, h3⟩ := R.shared i k h
    exact ⟨d, h1, by simp only; rw [dataAt_push _ _ _ (dataAt_lt h2)]; exact h2, h3⟩
  arcs i k h := by
    obtain ⟨d, h1, h2, h3⟩ := R.arcs i k h
    exact ⟨d, h1, by simp only; rw [dataAt_push _ _ _ (dataAt_lt h2)]; exact h2, h3⟩
  sharedN := R.sharedN
  arcsN := R.arcsN
  ls := R.ls
  la := R.la

theorem Rel.getShared {s : State} {a : Abs} (R : Rel s a) {i k : Nat} (h : (s.shared[i]?).join = some k) :
    ∃ d b, (a.shared[i]?).join = some d ∧ s.heap[k]? = some b ∧ b.data = d ++ [0] ∧ 0 ∉ d ∧ validUtf8 d = true ∧
      0 < b.refs := by
  obtain ⟨d, h1, h2, h3, h4⟩ := R.shared i k h
  obtain ⟨b, e1, e2⟩ := dataAt_get h2
  refine ⟨d, b, h1, e1, e2, h3, h4, ?_⟩
  have := cnt_pos h
  rw [R.refs k b e1]; omega

theorem Rel.getArc {s : State} {a : Abs} (R : Rel s a) {i k : Nat} (h : (s.arcs[i]?).join = some k) :
    ∃ d b, (a.arcs[i]?).join = some d ∧ s.heap[k]? = some b ∧ b.data = d ++ [0] ∧ 0 ∉ d ∧ 0 < b.refs := by
  obtain ⟨d, h1, h2, h3⟩ := R.arcs i k h
  obtain ⟨b, e1, e2⟩ := dataAt_get h2
  refine ⟨d, b, h1, e1, e2, h3, ?_⟩
  have := cnt_pos h
  rw [R.refs k b e1]; omega

theorem Rel.cloneShared {s : State} {a : Abs} (R : Rel s a) {i p : Nat} {b : Blk} {d : Bytes}
    (h : (s.shared[i]?).join = some p) (e : s.heap[p]? = some b) (hd : (a.shared[i]?).join = some d) :
    Rel ⟨s.heap.set p { b with refs := b.refs + 1 }, s.shared ++ [some p], s.arcs⟩ ⟨a.shared ++ [some d], a.arcs⟩ where
  refs k b' hb := by
    rw [cnt_push]
    rcases get_set e hb with ⟨rfl, h1⟩ | ⟨h1, h2⟩
    · rw [h1, R.refs _ _ e]; simp; omega
    · rw [R.refs _ _ h2, if_neg (fun e => h1 e.symm)]; simp
  dom k hk := by
    simp at hk
    have hlt : p < s.heap.length := dataAt_lt (d := b.data) (by simp [dataAt, e])
    rw [cnt_push, if_neg (by omega)]
    have := R.dom k hk; simp only at this ⊢; omega
  shared j k hj := by
    simp only [dataAt_set e]
    simp only [join_push] at hj ⊢
    split at hj
    · rename_i hi
      cases hj
      obtain ⟨d', h1, h2⟩ := R.shared i p h
      rw [hd] at h1; cases h1
      exact ⟨d, by simp [← R.ls, hi], h2⟩
    · rename_i hi
      obtain ⟨d', h1, h2⟩ := R.shared j k hj
      exact ⟨d', by rw [← R.ls, if_neg hi]; exact h1, h2⟩
  arcs j k hj := by
    simp only [dataAt_set e]
    exact R.arcs j k hj
  sharedN j hj := by
    simp only [join_push] at hj ⊢
    split at hj
    · cases hj
    · rename_i hi; rw [← R.ls, if_neg hi]; exact R.sharedN j hj
  arcsN := R.arcsN
  ls := by simp [R.ls]
  la := R.la

theorem Rel.cloneArc {s : State} {a : Abs} (R : Rel s a) {i p : Nat} {b : Blk} {d : Bytes}
    (h : (s.arcs[i]?).join = some p) (e : s.heap[p]? = some b) (hd : (a.arcs[i]?).join = some d) :
    Rel ⟨s.heap.set p { b with refs := b.refs + 1 }, s.shared, s.arcs ++ [some p]⟩ ⟨a.shared, a.arcs ++ [some d]⟩ where
  refs k b' hb := by
    rw [cnt_push]
    rcases get_set e hb with ⟨rfl, h1⟩ | ⟨h1, h2⟩
    · rw [h1, R.refs _ _ e]; simp; omega
    · rw [R.refs _ _ h2, if_neg (fun e => h1 e.symm)]; simp
  dom k hk := by
    simp at hk
    have hlt : p < s.heap.length := dataAt_lt (d := b.data) (by simp [dataAt, e])
    rw [cnt_push, if_neg (by omega)]
    have := R.dom k hk; simp only at this ⊢; omega
  arcs j k hj := by
    simp only [dataAt_set e]
    simp only [join_push] at hj ⊢
    split at hj
    · rename_i hi
      cases hj
      obtain ⟨d', h1, h2⟩ := R.arcs i p h
      rw [hd] at h1; cases h1
      exact ⟨d, by simp [← R.la, hi], h2⟩
    · rename_i hi
      obtain ⟨d', h1, h2⟩ := R.arcs j k hj
      exact ⟨d', by rw [← R.la, if_neg hi]; exact h1, h2⟩
  shared j k hj := by
    simp only [dataAt_set e]
    exact R.shared j k hj
  arcsN j hj := by
    simp only [join_push] at hj ⊢
    split at hj
    · cases hj
    · rename_i hi; rw [← R.la, if_neg hi]; exact R.arcsN j hj
  sharedN := R.sharedN
  la := by simp [R.la]
  ls := R.ls

theorem Rel.dropShared {s : State} {a : Abs} (R : Rel s a) {i p : Nat} {b : Blk}
    (h : (s.shared[i]?).join = some p) (e : s.heap[p]? = some b) :
    Rel ⟨s.heap.set p { b with refs := b.refs - 1 }, s.shared.set i none, s.arcs⟩ ⟨a.shared.set i none, a.arcs⟩ where
  refs k b' hb := by
    have := cnt_set h k
    rcases get_set e hb with ⟨rfl, h1⟩ | ⟨h1, h2⟩
    · rw [h1, R.refs _ _ e]; simp at this ⊢; omega
    · rw [R.refs _ _ h2]; rw [if_neg (fun e => h1 e.symm)] at this; simp only at this ⊢; omega
  dom k hk := by
    simp at hk
    have := cnt_set h k
    have := R.dom k hk; simp only at this ⊢; omega
  shared j k hj := by
    simp only [dataAt_set e]
    simp only [join_set] at hj ⊢
    split at hj
    · cases hj
    · rename_i hi; rw [if_neg hi]; exact R.shared j k hj
  arcs j k hj := by
    simp only [dataAt_set e]
    exact R.arcs j k hj
  sharedN j hj := by
    simp only [join_set] at hj ⊢
    split
    · rfl
    · rename_i hi; rw [if_neg hi] at hj; exact R.sharedN j hj
  arcsN := R.arcsN
  ls := by simp [R.ls]
  la := R.la

theorem Rel.dropArc {s : State} {a : Abs} (R : Rel s a) {i p : Nat} {b : Blk}
    (h : (s.arcs[i]?).join = some p) (e : s.heap[p]? = some b) :
    Rel ⟨s.heap.set p { b with refs := b.refs - 1 }, s.shared, s.arcs.set i none⟩ ⟨a.shared, a.arcs.set i none⟩ where
  refs k b' hb := by
    have := cnt_set h k
    rcases get_set e hb with ⟨rfl, h1⟩ | ⟨h1, h2⟩
    · rw [h1, R.refs _ _ e]; simp at this ⊢; omega
    · rw [R.refs _ _ h2]; rw [if_neg (fun e => h1 e.symm)] at this; simp only at this ⊢; omega
  dom k hk := by
    simp at hk
    have := cnt_set h k
    have := R.dom k hk; simp only at this ⊢; omega
  arcs j k hj := by
    simp only [dataAt_set e]
    simp only [join_set] at hj ⊢
    split at hj
    · cases hj
    · rename_i hi; rw [if_neg hi]; exact R.arcs j k hj
  shared j k hj := by
    simp only [dataAt_set e]
    exact R.shared j k hj
  arcsN j hj := by
    simp only [join_set] at hj ⊢
    split
    · rfl
    · rename_i hi; rw [if_neg hi] at hj; exact R.arcsN j hj
  sharedN := R.sharedN
  la := by simp [R.la]
  ls := R.ls

theorem Rel.arcToShared {s : State} {a : Abs} (R : Rel s a) {i p : Nat} {d : Bytes}
    (h : (s.arcs[i]?).join = some p) (hd : (a.arcs[i]?).join = some d) (hu : validUtf8 d = true) :
    Rel ⟨s.heap, s.shared ++ [some p], s.arcs.set i none⟩ ⟨a.shared ++ [some d], a.arcs.set i none⟩ where
  refs k b' hb := by
    have := cnt_set h k
    rw [cnt_push, R.refs _ _ hb]; simp only at this ⊢; omega
  dom k hk := by
    have := cnt_set h k
    have := R.dom k hk
    rw [cnt_push]; simp only at this ⊢; omega
  shared j k hj := by
    simp only [join_push] at hj ⊢
    split at hj
    · rename_i hi
      cases hj
      obtain ⟨d', h1, h2, h3⟩ := R.arcs i p h
      rw [hd] at h1; cases h1
      exact ⟨d, by simp [← R.ls, hi], h2, h3, hu⟩
    · rename_i hi
      obtain ⟨d', h1, h2⟩ := R.shared j k hj
      exact ⟨d', by rw [← R.ls, if_neg hi]; exact h1, h2⟩
  arcs j k hj := by
    simp only [join_set] at hj ⊢
    split at hj
    · cases hj
    · rename_i hi; rw [if_neg hi]; exact R.arcs j k hj
  sharedN j hj := by
    simp only [join_push] at hj ⊢
    split at hj
    · cases hj
    · rename_i hi; rw [← R.ls, if_neg hi]; exact R.sharedN j hj
  arcsN j hj := by
    simp only [join_set] at hj ⊢
    split
    · rfl
    · rename_i hi; rw [if_neg hi] at hj; exact R.arcsN j hj
  la := by simp [R.la]
  ls := by simp [R.ls]

/-! ### The functions -/

theorem memAt_ok {h : Heap} {i : Nat} {b : Blk} (e : h[i]? = some b) (hp : 0 < b.refs) :
    memAt h i = .ok b.data := by simp [memAt, e, hp]

theorem take_nul (d : Bytes) : (d ++ [0]).take ((d ++ [0]).length - 1) = d := by simp

theorem fromArc_ok {h : Heap} {i : Nat} {b : Blk} {d : Bytes} (e : h[i]? = some b) (hp : 0 < b.refs)
    (hd : b.data = d ++ [0]) (hu : validUtf8 d = true) : fromArc h i = .ok (h, .ok i) := by
  simp only [fromArc, memAt_ok e hp, hd, bind, Except.bind, take_nul, hu, if_true]

theorem fromArc_panic {h : Heap} {i : Nat} {b : Blk} {d : Bytes} (e : h[i]? = some b) (hp : 0 < b.refs)
    (hd : b.data = d ++ [0]) (hu : validUtf8 d = false) :
    fromArc h i = .ok (h.set i { b with refs := b.refs - 1 }, .panic) := by
  simp only [fromArc, memAt_ok e hp, hd, bind, Except.bind, take_nul, hu, Bool.false_eq_true, if_false,
    addRefs_ok e hd hp]

theorem cstr_ok {h : Heap} {i : Nat} {b : Blk} {d : Bytes} (e : h[i]? = some b) (hp : 0 < b.refs)
    (hd : b.data = d ++ [0]) (h0 : 0 ∉ d) : cstrFromPtr h i = .ok (d ++ [0]) := by
  simp only [cstrFromPtr, memAt_ok e hp, hd, bind, Except.bind, toBytesWithNull_app h0]

theorem fromCStr_ok (h : Heap) {c : Bytes} (hu : validUtf8 c = true) :
    fromCStr h c = .ok (h ++ [⟨c ++ [0], 1⟩], .ok h.length) :=
  fromArc_ok (b := ⟨c ++ [0], 1⟩) (by simp) (by simp) rfl hu

theorem fromCStr_panic (h : Heap) {c : Bytes} (hu : validUtf8 c = false) :
    fromCStr h c = .ok (h ++ [⟨c ++ [0], 0⟩], .panic) := by
  unfold fromCStr
  rw [fromArc_panic (b := ⟨c ++ [0], 1⟩) (by simp) (by simp) rfl hu]
  simp

theorem step_ok {s : State} {a : Abs} (R : Rel s a) (op : Op) :
    ∃ s', step s op = .ok (s', (a.step op).2) ∧ Rel s' (a.step op).1 := by
  have ls := R.ls
  have la := R.la
  cases op with
  | fromStr cs =>
    have hz := zero_mem_utf8 cs
    change (0 : Byte) ∈ cs.flatMap String.utf8EncodeChar ↔ _ at hz
    by_cases h0 : '\x00' ∈ cs
    · refine ⟨s, ?_, ?_⟩
      · have : (cs.flatMap String.utf8EncodeChar).contains 0 = true := by simpa using hz.2 h0
        simp only [step, Shared.fromStr, this, if_true, bind, Except.bind, Abs.step, if_pos h0]
      · simp only [Abs.step, if_pos h0]; exact R
    · have hz' := fun e => h0 (hz.1 e)
      have hu := valid_utf8 cs
      refine ⟨_, ?_, by simp only [Abs.step, if_neg h0]; exact R.addShared (c := utf8 cs) hz' hu⟩
      have : (cs.flatMap String.utf8EncodeChar).contains 0 = false := by simpa using hz'
      simp only [step, Shared.fromStr, this, Bool.false_eq_true, if_false, bind, Except.bind, Abs.step, if_neg h0,
        fromCStr_ok s.heap (c := cs.flatMap String.utf8EncodeChar) hu, ls]
      rfl
  | fromCString c =>
    by_cases h0 : 0 ∈ c
    · exact ⟨s, by simp [step, Abs.step, h0], by simp only [Abs.step, if_pos h0]; exact R⟩
    · have h0' : ¬ (c.contains 0 = true) := by simpa using h0
      cases hu : validUtf8 c with
      | true =>
        refine ⟨_, ?_, by simp only [Abs.step, if_neg h0, hu, if_true]; exact R.addShared h0 hu⟩
        simp only [step, if_neg h0', fromCStr_ok s.heap hu, bind, Except.bind, Abs.step, if_neg h0, hu, if_true, ls]
      | false =>
        refine ⟨_, ?_, by simp only [Abs.step, if_neg h0, hu, Bool.false_eq_true, if_false]; exact R.leakFree (c ++ [0])⟩
        simp only [step, if_neg h0', fromCStr_panic s.heap hu, bind, Except.bind, Abs.step, if_neg h0, hu,
          Bool.false_eq_true, if_false]
  | arcNew c =>
    by_cases h0 : 0 ∈ c
    · exact ⟨s, by simp [step, Abs.step, h0], by simp only [Abs.step, if_pos h0]; exact R⟩
    · have h0' : ¬ (c.contains 0 = true) := by simpa using h0
      refine ⟨_, ?_, by simp only [Abs.step, if_neg h0]; exact R.addArc h0⟩
      simp only [step, if_neg h0', Abs.step, if_neg h0, la]
  | arcClone j =>
    cases hv : (s.arcs[j]?).join with
    | none => exact ⟨s, by simp only [step, hv, Abs.step, R.arcsN j hv],
        by simp only [Abs.step, R.arcsN j hv]; exact R⟩
    | some p =>
      obtain ⟨d, b, h1, h2, h3, h4, h5⟩ := R.getArc hv
      refine ⟨_, ?_, by simp only [Abs.step, h1]; exact R.cloneArc hv h2 h1⟩
      simp only [step, hv, memAt_ok h2 h5, addRefs_ok h2 rfl h5, bind, Except.bind, Abs.step, h1, la]
  | arcDrop j =>
    cases hv : (s.arcs[j]?).join with
    | none => exact ⟨s, by simp only [step, hv, Abs.step, R.arcsN j hv],
        by simp only [Abs.step, R.arcsN j hv]; exact R⟩
    | some p =>
      obtain ⟨d, b, h1, h2, h3, h4, h5⟩ := R.getArc hv
      refine ⟨_, ?_, by simp only [Abs.step, h1]; exact R.dropArc hv h2⟩
      simp only [step, hv, memAt_ok h2 h5, addRefs_ok h2 rfl h5, bind, Except.bind, Abs.step, h1]
  | fromArc j =>
    cases hv : (s.arcs[j]?).join with
    | none => exact ⟨s, by simp only [step, hv, Abs.step, R.arcsN j hv],
        by simp only [Abs.step, R.arcsN j hv]; exact R⟩
    | some p =>
      obtain ⟨d, b, h1, h2, h3, h4, h5⟩ := R.getArc hv
      cases hu : validUtf8 d with
      | true =>
        refine ⟨_, ?_, by simp only [Abs.step, h1, hu, if_true]; exact R.arcToShared hv h1 hu⟩
        simp only [step, hv, fromArc_ok h2 h5 h3 hu, bind, Except.bind, Abs.step, h1, hu, if_true, ls]
      | false =>
        refine ⟨_, ?_, by simp only [Abs.step, h1, hu, Bool.false_eq_true, if_false]; exact R.dropArc hv h2⟩
        simp only [step, hv, fromArc_panic h2 h5 h3 hu, bind, Except.bind, Abs.step, h1, hu,
          Bool.false_eq_true, if_false]
  | clone i =>
    cases hv : (s.shared[i]?).join with
    | none => exact ⟨s, by simp only [step, hv, Abs.step, R.sharedN i hv],
        by simp only [Abs.step, R.sharedN i hv]; exact R⟩
    | some p =>
      obtain ⟨d, b, h1, h2, h3, h4, hu, h5⟩ := R.getShared hv
      refine ⟨_, ?_, by simp only [Abs.step, h1]; exact R.cloneShared hv h2 h1⟩
      have hlt : p < s.heap.length := dataAt_lt (d := b.data) (by simp [dataAt, h2])
      have e1 : (s.heap.set p { b with refs := b.refs + 1 })[p]? = some { b with refs := b.refs + 1 } :=
        List.getElem?_set_self hlt
      simp only [step, hv, cloneS, cstr_ok h2 h5 h3 h4, addRefs_ok h2 h3 h5, bind, Except.bind,
        fromArc_ok e1 (Nat.succ_pos _) h3 hu, Abs.step, h1, ls]
  | drop i =>
    cases hv : (s.shared[i]?).join with
    | none => exact ⟨s, by simp only [step, hv, Abs.step, R.sharedN i hv],
        by simp only [Abs.step, R.sharedN i hv]; exact R⟩
    | some p =>
      obtain ⟨d, b, h1, h2, h3, h4, hu, h5⟩ := R.getShared hv
      refine ⟨_, ?_, by simp only [Abs.step, h1]; exact R.dropShared hv h2⟩
      simp only [step, hv, dropS, cstr_ok h2 h5 h3 h4, addRefs_ok h2 h3 h5, bind, Except.bind, Abs.step, h1]
  | deref i =>
    cases hv : (s.shared[i]?).join with
    | none => exact ⟨s, by simp only [step, hv, Abs.step, R.sharedN i hv],
        by simp only [Abs.step, R.sharedN i hv]; exact R⟩
    | some p =>
      obtain ⟨d, b, h1, h2, h3, h4, hu, h5⟩ := R.getShared hv
      refine ⟨s, ?_, by simp only [Abs.step, h1]; exact R⟩
      simp only [step, hv, derefS, cstr_ok h2 h5 h3 h4, bind, Except.bind, take_nul, hu, if_true, Abs.step, h1]

theorem run_ok {s : State} {a : Abs} (R : Rel s a) (ops : List Op) :
    ∃ s', run s ops = .ok (s', (a.run ops).2) ∧ Rel s' (a.run ops).1 := by
  induction ops generalizing s a with
  | nil => exact ⟨s, rfl, R⟩
  | cons o os ih =>
    obtain ⟨s1, e1, R1⟩ := step_ok R o
    obtain ⟨s2, e2, R2⟩ := ih R1
    exact ⟨s2, by simp only [run, e1, bind, Except.bind, e2, Abs.run], R2⟩

end Verif.CharP.Shared
