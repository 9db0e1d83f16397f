import Verif.Bytes.Heap
/-! Ownership invariant and the effect of each internal function under it. -/
namespace Verif.Bytes

/-- The kind of region a vtable goes with. -/
def kindOf : VtKind → Kind
  | .static => .static
  | .slice => .borrowed
  | .arc => .arc
  | .arcT => .arcT
  | .box => .box

theorem vtAt_vtAddr (e : Env) (k : VtKind) : e.vtAt (e.vtAddr k) = some k := by
  have inj : ∀ a b, (e.vtAddr a == e.vtAddr b) = decide (a = b) := by
    intro a b
    by_cases h : a = b
    · simp [h]
    · have : e.vtAddr a ≠ e.vtAddr b := fun h' => h (e.vt_inj _ _ h')
      simp [h, this]
  unfold Env.vtAt
  cases k <;> simp [List.find?, inj]

theorem vtAt_some {e : Env} {n : Nat} {k : VtKind} (h : e.vtAt n = some k) : e.vtAddr k = n := by
  have := List.find?_some h
  simpa using this

/-- `h` is a well-formed `Bytes` whose contents are `d`. -/
inductive HandleOk (e : Env) (hp : List Alloc) : Handle → List Byte → Prop
  | inl {r : Raw} {lt : Option Nat} (hlen : r.length = 5 * e.w) (hin : isInlined e.toTarget r = true)
      (hmax : lenOf e.toTarget r ≤ maxInline e.toTarget) :
      HandleOk e hp ⟨r, lt⟩ (r.take (lenOf e.toTarget r))
  | out {f : Fields} {k : VtKind} {lt : Option Nat} {a : Alloc} (hf : f.Ok e.toTarget)
      (hvt : f.vt = e.vtAddr k) (ha : a ∈ hp) (hk : a.kind = kindOf k) (hb : a.base = f.owner)
      (h1 : a.base ≤ f.start) (h2 : f.start + f.len ≤ a.base + a.data.length)
      (hc : f.cap = a.data.length) (hbox : k = .box → 0 < f.cap)
      (hlt : k = .slice → lt = some a.base) :
      HandleOk e hp ⟨f.raw e.toTarget, lt⟩ ((a.data.drop (f.start - a.base)).take f.len)
  | emptyBox {lt : Option Nat} :
      HandleOk e hp ⟨Fields.raw e.toTarget ⟨1, 0, 1, 0, e.vtAddr .box⟩, lt⟩ []

theorem HandleOk.mono {e : Env} {hp hp' : List Alloc} (x : Ext hp hp') {h : Handle} {d : List Byte}
    (H : HandleOk e hp h d) : HandleOk e hp' h d := by
  cases H with
  | inl h1 h2 h3 => exact .inl h1 h2 h3
  | out hf hvt ha hk hb h1 h2 hc hbox hlt =>
    obtain ⟨a', ha', e1, e2, e3⟩ := x _ ha
    rw [← e1, ← e2]
    exact .out hf hvt ha' (by rw [e3, hk]) (by rw [e1, hb]) (by rw [e1]; exact h1)
      (by rw [e1, e2]; exact h2) (by rw [e2]; exact hc) hbox (by rw [e1]; exact hlt)
  | emptyBox => exact .emptyBox

/-- The region whose count this value owns a unit of. -/
def ownerOf (e : Env) (r : Raw) : Option Nat :=
  if isInlined e.toTarget r then none
  else match e.vtAt (getWord e.toTarget r 4) with
    | some .arc => some (getWord e.toTarget r 2)
    | some .arcT => some (getWord e.toTarget r 2)
    | some .box => if getWord e.toTarget r 3 = 0 then none else some (getWord e.toTarget r 2)
    | _ => none

theorem emptyBox_ok (e : Env) : Fields.Ok e.toTarget ⟨1, 0, 1, 0, e.vtAddr .box⟩ := by
  have := wordMax_ge e.toTarget
  exact ⟨by show 1 < _; omega, by show 0 < _; omega, by show 1 < _; omega, by show 0 < _; omega,
    e.vt_lt _⟩

/-- Facts about an out-of-line image. -/
theorem out_facts (e : Env) (f : Fields) (k : VtKind) (hf : f.Ok e.toTarget) (hvt : f.vt = e.vtAddr k) :
    isInlined e.toTarget (f.raw e.toTarget) = false
    ∧ getWord e.toTarget (f.raw e.toTarget) 0 = f.start
    ∧ getWord e.toTarget (f.raw e.toTarget) 1 = f.len
    ∧ getWord e.toTarget (f.raw e.toTarget) 2 = f.owner
    ∧ getWord e.toTarget (f.raw e.toTarget) 3 = f.cap
    ∧ getWord e.toTarget (f.raw e.toTarget) 4 = f.vt
    ∧ e.vtAt (getWord e.toTarget (f.raw e.toTarget) 4) = some k := by
  have h := fieldsOf_raw _ f hf
  have h0 : getWord e.toTarget (f.raw e.toTarget) 4 = f.vt := congrArg Fields.vt h
  refine ⟨isInlined_raw _ _ (by rw [hvt]; exact e.vt_even k), congrArg Fields.start h,
    congrArg Fields.len h, congrArg Fields.owner h, congrArg Fields.cap h, h0, ?_⟩
  rw [h0, hvt, vtAt_vtAddr]

theorem ownerOf_out (e : Env) (f : Fields) (k : VtKind) (hf : f.Ok e.toTarget) (hvt : f.vt = e.vtAddr k) :
    ownerOf e (f.raw e.toTarget) = (match k with
      | .arc => some f.owner
      | .arcT => some f.owner
      | .box => if f.cap = 0 then none else some f.owner
      | _ => none) := by
  obtain ⟨h0, _, _, h2, h3, _, h4⟩ := out_facts e f k hf hvt
  unfold ownerOf
  rw [h0, h4, h2, h3]
  cases k <;> rfl

theorem ownerOf_inl {e : Env} {r : Raw} (h : isInlined e.toTarget r = true) : ownerOf e r = none := by
  unfold ownerOf; rw [h]; rfl

/-- The owned region exists in the heap, with a counted kind. -/
theorem HandleOk.owner {e : Env} {hp : List Alloc} {h : Handle} {d : List Byte} (H : HandleOk e hp h d)
    {b : Nat} (hb : ownerOf e h.raw = some b) :
    ∃ a ∈ hp, a.base = b ∧ (a.kind = .arc ∨ a.kind = .arcT ∨ a.kind = .box) := by
  cases H with
  | inl h1 h2 h3 => rw [ownerOf_inl h2] at hb; cases hb
  | @out f k lt a hf hvt ha hk hbb h1 h2 hc hbox hlt =>
    rw [ownerOf_out e f k hf hvt] at hb
    refine ⟨a, ha, ?_, ?_⟩
    · cases k <;> simp at hb
      · rw [hbb, hb]
      · rw [hbb, hb]
      · rw [hbb, hb.2]
    · cases k <;> simp at hb <;> simp [hk, kindOf]
  | emptyBox =>
    rw [ownerOf_out e _ .box (emptyBox_ok e) rfl] at hb
    simp at hb

/-- Ownership invariant over the live `Bytes` values `L` and the live `Arc`s `A`
(order irrelevant). -/
structure InvC (e : Env) (hp : List Alloc) (next : Nat) (L : List Handle) (A : List Nat) : Prop where
  heap : HeapOk hp next
  nextLo : 16 ≤ next
  nextHi : next < wordMax e.toTarget
  ok : ∀ h ∈ L, ∃ d, HandleOk e hp h d
  lts : ∀ h ∈ L, ∀ b, h.lt = some b → ∃ a ∈ hp, a.base = b ∧ a.kind = .borrowed ∧ 0 < a.refs
  arcs : ∀ b ∈ A, ∃ a ∈ hp, a.base = b ∧ a.kind = .arc
  counted : ∀ a ∈ hp, a.kind ≠ .static → a.kind ≠ .borrowed →
    a.refs = L.countP (fun h => ownerOf e h.raw == some a.base) + A.count a.base
  static : ∀ a ∈ hp, a.kind = .static → a.refs = 1

theorem InvC.perm {e : Env} {hp : List Alloc} {n : Nat} {L L' : List Handle} {A A' : List Nat}
    (I : InvC e hp n L A) (pL : L.Perm L') (pA : A.Perm A') : InvC e hp n L' A' :=
  { heap := I.heap, nextLo := I.nextLo, nextHi := I.nextHi
    ok := fun h hh => I.ok h (pL.mem_iff.mpr hh)
    lts := fun h hh => I.lts h (pL.mem_iff.mpr hh)
    arcs := fun b hb => I.arcs b (pA.mem_iff.mpr hb)
    counted := fun a ha h1 h2 => by rw [I.counted a ha h1 h2, pL.countP_eq, pA.count_eq]
    static := I.static }

/-- In a consistent state, the region behind a live out-of-line value is live. -/
theorem InvC.live {e : Env} {hp : List Alloc} {n : Nat} {L : List Handle} {A : List Nat}
    (I : InvC e hp n L A) {f : Fields} {k : VtKind} {lt : Option Nat} {a : Alloc}
    (hm : (⟨f.raw e.toTarget, lt⟩ : Handle) ∈ L) (hf : f.Ok e.toTarget) (hvt : f.vt = e.vtAddr k)
    (ha : a ∈ hp) (hk : a.kind = kindOf k) (hb : a.base = f.owner) (hbox : k = .box → 0 < f.cap)
    (hlt : k = .slice → lt = some a.base) : 0 < a.refs := by
  have own : ownerOf e (f.raw e.toTarget) = some a.base → a.kind ≠ .static → a.kind ≠ .borrowed → 0 < a.refs := by
    intro ho h1 h2
    have := I.counted a ha h1 h2
    have hp : 0 < L.countP (fun h => ownerOf e h.raw == some a.base) := by
      rw [List.countP_pos_iff]
      exact ⟨_, hm, by simp [ho]⟩
    omega
  have oo := ownerOf_out e f k hf hvt
  cases k with
  | static => rw [I.static a ha hk]; omega
  | slice =>
    obtain ⟨c, hc, e1, _, e3⟩ := I.lts _ hm _ (hlt rfl)
    rw [← I.heap.uniqBase hc ha e1]; exact e3
  | arc => exact own (by rw [oo, hb]) (by simp [hk, kindOf]) (by simp [hk, kindOf])
  | arcT => exact own (by rw [oo, hb]) (by simp [hk, kindOf]) (by simp [hk, kindOf])
  | box =>
    have := hbox rfl
    refine own ?_ (by simp [hk, kindOf]) (by simp [hk, kindOf])
    rw [oo, hb]; simp; omega

/-- Every live value can be read, and reads as its contents. -/
theorem InvC.asSlice {e : Env} {hp : List Alloc} {n : Nat} {L : List Handle} {A : List Nat}
    (I : InvC e hp n L A) {h : Handle} {d : List Byte} (hm : h ∈ L) (H : HandleOk e hp h d) :
    asSlice e.toTarget hp h.raw = .ok d := by
  cases H with
  | inl h1 h2 h3 => unfold Bytes.asSlice; rw [h2]; rfl
  | @out f k lt a hf hvt ha hk hb h1 h2 hc hbox hlt =>
    obtain ⟨g0, g1, g2, _⟩ := out_facts e f k hf hvt
    have hl := I.live hm hf hvt ha hk hb hbox hlt
    unfold Bytes.asSlice
    rw [g0, g1, g2]
    exact readMem_ok I.heap ha hl h1 h2
  | emptyBox =>
    obtain ⟨g0, g1, g2, _⟩ := out_facts e _ .box (emptyBox_ok e) rfl
    unfold Bytes.asSlice
    simp only [g0, g1, g2, readMem]
    rfl

/-- The contents of a live value are unique. -/
theorem InvC.unique {e : Env} {hp : List Alloc} {n : Nat} {L : List Handle} {A : List Nat}
    (I : InvC e hp n L A) {h : Handle} {d d' : List Byte} (hm : h ∈ L) (H : HandleOk e hp h d)
    (H' : HandleOk e hp h d') : d = d' := by
  have a := I.asSlice hm H
  rw [I.asSlice hm H'] at a
  exact (Except.ok.inj a).symm

theorem HandleOk.len {e : Env} {hp : List Alloc} {h : Handle} {d : List Byte} (H : HandleOk e hp h d) :
    lenOf e.toTarget h.raw = d.length := by
  cases H with
  | inl h1 h2 h3 =>
    have := maxInline_lt e.toTarget
    rw [List.length_take, h1]
    exact (Nat.min_eq_left (Nat.le_trans h3 (Nat.le_of_lt this))).symm
  | @out f k lt a hf hvt ha hk hb h1 h2 hc hbox hlt =>
    obtain ⟨g0, g1, g2, _⟩ := out_facts e f k hf hvt
    unfold lenOf
    rw [g0, g2, List.length_take, List.length_drop]
    show f.len = _
    omega
  | emptyBox =>
    obtain ⟨g0, g1, g2, _⟩ := out_facts e _ .box (emptyBox_ok e) rfl
    unfold lenOf
    rw [g0, g2]; rfl

/-! ### Transitions -/

/-- New static or borrowed region. -/
theorem InvC.growPlain {e : Env} {hp : List Alloc} {n : Nat} {L : List Handle} {A : List Nat}
    (I : InvC e hp n L A) (d : List Byte) (k : Kind) (hk : k = .static ∨ k = .borrowed) (m : Nat)
    (h1 : n + d.length < m) (h2 : m < wordMax e.toTarget) :
    InvC e (hp ++ [⟨n, d, k, 1⟩]) m L A :=
  { heap := I.heap.append I.nextLo d k 1 m h1
    nextLo := by have := I.nextLo; omega
    nextHi := h2
    ok := fun h hh => (I.ok h hh).imp fun _ H => H.mono (Ext.append _ _)
    lts := fun h hh b hb => by
      obtain ⟨a, ha, r⟩ := I.lts h hh b hb
      exact ⟨a, List.mem_append_left _ ha, r⟩
    arcs := fun b hb => by
      obtain ⟨a, ha, r⟩ := I.arcs b hb
      exact ⟨a, List.mem_append_left _ ha, r⟩
    counted := fun a ha g1 g2 => by
      rcases List.mem_append.mp ha with x | x
      · exact I.counted a x g1 g2
      · simp at x; subst x; simp at g1 g2; rcases hk with rfl | rfl <;> contradiction
    static := fun a ha g => by
      rcases List.mem_append.mp ha with x | x
      · exact I.static a x g
      · simp at x; subst x; rfl }

theorem InvC.owner_lt {e : Env} {hp : List Alloc} {n : Nat} {L : List Handle} {A : List Nat}
    (I : InvC e hp n L A) : L.countP (fun h => ownerOf e h.raw == some n) = 0 ∧ A.count n = 0 := by
  constructor
  · rw [List.countP_eq_zero]
    intro h hh hc
    simp at hc
    obtain ⟨d, H⟩ := I.ok h hh
    obtain ⟨a, ha, e1, _⟩ := H.owner hc
    have := I.heap.hi a ha
    omega
  · rw [List.count_eq_zero]
    intro hb
    obtain ⟨a, ha, e1, _⟩ := I.arcs n hb
    have := I.heap.hi a ha
    omega

/-- New counted region together with its first owner, a `Bytes`. -/
theorem InvC.growBytes {e : Env} {hp : List Alloc} {n : Nat} {L : List Handle} {A : List Nat}
    (I : InvC e hp n L A) (d : List Byte) (k : VtKind) (m : Nat)
    (hk : k = .arc ∨ k = .arcT ∨ (k = .box ∧ 0 < d.length))
    (h1 : n + d.length < m) (h2 : m < wordMax e.toTarget) :
    let h : Handle := ⟨Fields.raw e.toTarget ⟨n, d.length, n, d.length, e.vtAddr k⟩, none⟩
    InvC e (hp ++ [⟨n, d, kindOf k, 1⟩]) m (h :: L) A ∧ HandleOk e (hp ++ [⟨n, d, kindOf k, 1⟩]) h d := by
  intro h
  have hf : Fields.Ok e.toTarget ⟨n, d.length, n, d.length, e.vtAddr k⟩ :=
    ⟨by show n < _; omega, by show d.length < _; omega, by show n < _; omega,
     by show d.length < _; omega, e.vt_lt k⟩
  have HO : HandleOk e (hp ++ [⟨n, d, kindOf k, 1⟩]) h d := by
    have := HandleOk.out (e := e) (hp := hp ++ [⟨n, d, kindOf k, 1⟩]) (lt := none) (k := k) (a := ⟨n, d, kindOf k, 1⟩) hf rfl (by simp) rfl rfl
      (Nat.le_refl _) (Nat.le_refl _) rfl (by intro hb; rcases hk with h | h | h <;> simp_all)
      (by intro hb; rcases hk with h | h | h <;> simp_all)
    simpa using this
  have own : ownerOf e h.raw = some n := by
    show ownerOf e (Fields.raw e.toTarget _) = _
    rw [ownerOf_out e _ k hf rfl]
    rcases hk with rfl | rfl | ⟨rfl, hp⟩
    · rfl
    · rfl
    · simp; intro hd; simp [hd] at hp
  have z := I.owner_lt
  refine ⟨?_, HO⟩
  exact
  { heap := I.heap.append I.nextLo d _ 1 m h1
    nextLo := by have := I.nextLo; omega
    nextHi := h2
    ok := fun h' hh => by
      rcases List.mem_cons.mp hh with rfl | hh
      · exact ⟨d, HO⟩
      · exact (I.ok h' hh).imp fun _ H => H.mono (Ext.append _ _)
    lts := fun h' hh b hb => by
      rcases List.mem_cons.mp hh with rfl | hh
      · cases hb
      · obtain ⟨a, ha, r⟩ := I.lts h' hh b hb
        exact ⟨a, List.mem_append_left _ ha, r⟩
    arcs := fun b hb => by
      obtain ⟨a, ha, r⟩ := I.arcs b hb
      exact ⟨a, List.mem_append_left _ ha, r⟩
    counted := fun a ha g1 g2 => by
      rcases List.mem_append.mp ha with x | x
      · rw [I.counted a x g1 g2, List.countP_cons_of_neg]
        have := I.heap.hi a x
        simp [own]; omega
      · simp at x; subst x
        rw [List.countP_cons_of_pos (by simp [own]), z.1, z.2]
    static := fun a ha g => by
      rcases List.mem_append.mp ha with x | x
      · exact I.static a x g
      · simp at x; subst x; rfl }

/-- New `Arc<[u8]>` held by the user. -/
theorem InvC.growArc {e : Env} {hp : List Alloc} {n : Nat} {L : List Handle} {A : List Nat}
    (I : InvC e hp n L A) (d : List Byte) (m : Nat)
    (h1 : n + d.length < m) (h2 : m < wordMax e.toTarget) :
    InvC e (hp ++ [⟨n, d, .arc, 1⟩]) m L (n :: A) := by
  have z := I.owner_lt
  exact
  { heap := I.heap.append I.nextLo d _ 1 m h1
    nextLo := by have := I.nextLo; omega
    nextHi := h2
    ok := fun h' hh => (I.ok h' hh).imp fun _ H => H.mono (Ext.append _ _)
    lts := fun h' hh b hb => by
      obtain ⟨a, ha, r⟩ := I.lts h' hh b hb
      exact ⟨a, List.mem_append_left _ ha, r⟩
    arcs := fun b hb => by
      rcases List.mem_cons.mp hb with rfl | hb
      · exact ⟨⟨_, d, .arc, 1⟩, List.mem_append_right _ (by simp), rfl, rfl⟩
      · obtain ⟨a, ha, r⟩ := I.arcs b hb
        exact ⟨a, List.mem_append_left _ ha, r⟩
    counted := fun a ha g1 g2 => by
      rcases List.mem_append.mp ha with x | x
      · rw [I.counted a x g1 g2, List.count_cons_of_ne]
        have := I.heap.hi a x
        omega
      · simp at x; subst x
        simp [z.1, z.2]
    static := fun a ha g => by
      rcases List.mem_append.mp ha with x | x
      · exact I.static a x g
      · simp at x; subst x; rfl }

/-- Add a value that owns no count. -/
theorem InvC.addPlain {e : Env} {hp : List Alloc} {n : Nat} {L : List Handle} {A : List Nat}
    (I : InvC e hp n L A) {h : Handle} {d : List Byte} (H : HandleOk e hp h d) (ho : ownerOf e h.raw = none)
    (hl : ∀ b, h.lt = some b → ∃ a ∈ hp, a.base = b ∧ a.kind = .borrowed ∧ 0 < a.refs) :
    InvC e hp n (h :: L) A :=
  { heap := I.heap, nextLo := I.nextLo, nextHi := I.nextHi
    ok := fun h' hh => by
      rcases List.mem_cons.mp hh with rfl | hh
      · exact ⟨d, H⟩
      · exact I.ok h' hh
    lts := fun h' hh => by
      rcases List.mem_cons.mp hh with rfl | hh
      · exact hl
      · exact I.lts h' hh
    arcs := I.arcs
    counted := fun a ha g1 g2 => by
      rw [I.counted a ha g1 g2, List.countP_cons_of_neg (by simp [ho])]
    static := I.static }

/-- Remove a value that owns no count. -/
theorem InvC.delPlain {e : Env} {hp : List Alloc} {n : Nat} {L : List Handle} {A : List Nat}
    {h : Handle} (I : InvC e hp n (h :: L) A) (ho : ownerOf e h.raw = none) : InvC e hp n L A :=
  { heap := I.heap, nextLo := I.nextLo, nextHi := I.nextHi
    ok := fun h' hh => I.ok h' (List.mem_cons_of_mem _ hh)
    lts := fun h' hh => I.lts h' (List.mem_cons_of_mem _ hh)
    arcs := I.arcs
    counted := fun a ha g1 g2 => by
      rw [I.counted a ha g1 g2, List.countP_cons_of_neg (by simp [ho])]
    static := I.static }

/-- Replace a value by one with the same owner. -/
theorem InvC.replace {e : Env} {hp : List Alloc} {n : Nat} {L : List Handle} {A : List Nat}
    {h h' : Handle} {d : List Byte} (I : InvC e hp n (h :: L) A) (H : HandleOk e hp h' d)
    (ho : ownerOf e h'.raw = ownerOf e h.raw)
    (hl : ∀ b, h'.lt = some b → ∃ a ∈ hp, a.base = b ∧ a.kind = .borrowed ∧ 0 < a.refs) :
    InvC e hp n (h' :: L) A :=
  { heap := I.heap, nextLo := I.nextLo, nextHi := I.nextHi
    ok := fun g hh => by
      rcases List.mem_cons.mp hh with rfl | hh
      · exact ⟨d, H⟩
      · exact I.ok g (List.mem_cons_of_mem _ hh)
    lts := fun g hh => by
      rcases List.mem_cons.mp hh with rfl | hh
      · exact hl
      · exact I.lts g (List.mem_cons_of_mem _ hh)
    arcs := I.arcs
    counted := fun a ha g1 g2 => by
      rw [I.counted a ha g1 g2, List.countP_cons, List.countP_cons, ho]
    static := I.static }

/-- One more owner of `b` (given as a `Bytes`). -/
theorem InvC.incBytes {e : Env} {hp : List Alloc} {n : Nat} {L : List Handle} {A : List Nat}
    (I : InvC e hp n L A) {h : Handle} {d : List Byte} {b : Nat} (H : HandleOk e hp h d)
    (ho : ownerOf e h.raw = some b)
    (hl : ∀ b, h.lt = some b → ∃ a ∈ hp, a.base = b ∧ a.kind = .borrowed ∧ 0 < a.refs) :
    InvC e (upd hp b (· + 1)) n (h :: L) A :=
  { heap := I.heap.upd _ _, nextLo := I.nextLo, nextHi := I.nextHi
    ok := fun h' hh => by
      rcases List.mem_cons.mp hh with rfl | hh
      · exact ⟨d, H.mono (upd_ext _ _ _)⟩
      · exact (I.ok h' hh).imp fun _ H => H.mono (upd_ext _ _ _)
    lts := fun h' hh c hc => by
      have : ∃ a ∈ hp, a.base = c ∧ a.kind = .borrowed ∧ 0 < a.refs := by
        rcases List.mem_cons.mp hh with rfl | hh
        · exact hl c hc
        · exact I.lts h' hh c hc
      obtain ⟨a, ha, e1, e2, e3⟩ := this
      refine ⟨_, List.mem_map.mpr ⟨a, ha, rfl⟩, ?_⟩
      split <;> simp_all
    arcs := fun c hc => by
      obtain ⟨a, ha, e1, e2⟩ := I.arcs c hc
      obtain ⟨a', ha', f1, f2, f3⟩ := upd_ext hp b (· + 1) a ha
      exact ⟨a', ha', by rw [f1, e1], by rw [f3, e2]⟩
    counted := fun a ha g1 g2 => by
      obtain ⟨a0, h0, e1, e2, e3, e4⟩ := mem_upd ha
      rw [e4, e1, I.counted a0 h0 (e3 ▸ g1) (e3 ▸ g2), List.countP_cons, ho]
      by_cases hb : a0.base = b
      · simp [hb]; omega
      · have : b ≠ a0.base := fun h => hb h.symm
        simp [hb, this]
    static := fun a ha g => by
      obtain ⟨a0, h0, e1, e2, e3, e4⟩ := mem_upd ha
      obtain ⟨c, hc, f1, f2⟩ := H.owner ho
      rw [e4, if_neg, I.static a0 h0 (e3 ▸ g)]
      intro hb
      have := I.heap.uniqBase hc h0 (by omega)
      subst this
      rw [e3] at g; simp [g] at f2 }

/-- One owner of `b` less. -/
theorem InvC.decBytes {e : Env} {hp : List Alloc} {n : Nat} {L : List Handle} {A : List Nat}
    {h : Handle} {b : Nat} (I : InvC e hp n (h :: L) A) (ho : ownerOf e h.raw = some b) :
    InvC e (upd hp b (· - 1)) n L A :=
  { heap := I.heap.upd _ _, nextLo := I.nextLo, nextHi := I.nextHi
    ok := fun h' hh => (I.ok h' (List.mem_cons_of_mem _ hh)).imp fun _ H => H.mono (upd_ext _ _ _)
    lts := fun h' hh c hc => by
      obtain ⟨a, ha, e1, e2, e3⟩ := I.lts h' (List.mem_cons_of_mem _ hh) c hc
      refine ⟨_, List.mem_map.mpr ⟨a, ha, rfl⟩, ?_⟩
      rw [if_neg]
      · exact ⟨e1, e2, e3⟩
      · intro hb
        obtain ⟨d, H⟩ := I.ok h (by simp)
        obtain ⟨c', hc', f1, f2⟩ := H.owner ho
        have := I.heap.uniqBase hc' ha (by omega)
        subst this
        simp [e2] at f2
    arcs := fun c hc => by
      obtain ⟨a, ha, e1, e2⟩ := I.arcs c hc
      obtain ⟨a', ha', f1, f2, f3⟩ := upd_ext hp b (· - 1) a ha
      exact ⟨a', ha', by rw [f1, e1], by rw [f3, e2]⟩
    counted := fun a ha g1 g2 => by
      obtain ⟨a0, h0, e1, e2, e3, e4⟩ := mem_upd ha
      rw [e4, e1, I.counted a0 h0 (e3 ▸ g1) (e3 ▸ g2), List.countP_cons, ho]
      by_cases hb : a0.base = b
      · simp [hb]
      · have : b ≠ a0.base := fun h => hb h.symm
        simp [hb, this]
    static := fun a ha g => by
      obtain ⟨a0, h0, e1, e2, e3, e4⟩ := mem_upd ha
      obtain ⟨d, H⟩ := I.ok h (by simp)
      obtain ⟨c, hc, f1, f2⟩ := H.owner ho
      rw [e4, if_neg, I.static a0 h0 (e3 ▸ g)]
      intro hb
      have := I.heap.uniqBase hc h0 (by omega)
      subst this
      rw [e3] at g; simp [g] at f2 }

end Verif.Bytes
