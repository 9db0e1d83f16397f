import Verif.Callback.Spec
import Verif.Util.Dec
/-!
# Lemmas about the lifetimes of callback newtypes
-/
namespace Verif.Callback

variable {R : Type}

theorem elidedName_inj {a b : Nat} (h : elidedName a = elidedName b) : a = b := by
  unfold elidedName at h
  apply toString_inj
  have := congrArg String.toList h
  simp only [String.toList_append] at this
  exact String.toList_inj.mp (List.append_cancel_left this)

theorem static_not_generated : ¬ Generated "static" := by
  rintro ⟨n, h⟩
  have := congrArg String.toList h
  simp only [String.toList_append] at this
  have := congrArg List.head? this
  simp at this

theorem generated_elided (n : Nat) : Generated (elidedName n) := ⟨n, rfl⟩

/-- The counter and the new lifetimes go together. -/
def Grows (s s' : St) : Prop :=
  ∃ n, s'.counter = s.counter + n ∧ s'.lifetimes = s.lifetimes ++ (List.range' s.counter n).map elidedName

theorem Grows.refl (s : St) : Grows s s := ⟨0, rfl, by simp⟩

theorem Grows.trans {a b c : St} (h : Grows a b) (h' : Grows b c) : Grows a c := by
  obtain ⟨n, h1, h2⟩ := h
  obtain ⟨m, h3, h4⟩ := h'
  refine ⟨n + m, by omega, ?_⟩
  rw [h4, h2, h1, List.append_assoc, ← List.map_append, List.range'_append_1]

theorem grows_fresh (s : St) : Grows s s.fresh.2 := ⟨1, rfl, rfl⟩

theorem grows_visitLt (l : Lt) (s : St) : Grows s (visitLt l s).2 := by
  cases l
  · exact grows_fresh s
  · exact .refl s

theorem grows_visitLts : ∀ (ls : List Lt) (s : St), Grows s (visitLts ls s).2
  | [], s => .refl s
  | l :: ls, s => by
    simp only [visitLts]
    exact (grows_visitLt l s).trans (grows_visitLts ls _)

mutual
theorem grows_visit : ∀ (ty : Ty) (s : St), Grows s (visit ty s).2
  | .path n lts args, s => by simp only [visit]; exact (grows_visitLts lts s).trans (grows_visits args _)
  | .ref (some l) m ty, s => by simp only [visit]; exact (grows_visitLt l s).trans (grows_visit ty _)
  | .ref none m ty, s => by simp only [visit]; exact (grows_visit ty s).trans (grows_fresh _)
  | .ptr m ty, s => by simp only [visit]; exact grows_visit ty s
  | .tuple tys, s => by simp only [visit]; exact grows_visits tys s
  | .dyn ts lts, s => by simp only [visit]; exact (grows_visits ts s).trans (grows_visitLts lts _)
  | .fn b ps r, s => by simp only [visit]; exact (grows_visits ps s).trans (grows_visit r _)
theorem grows_visits : ∀ (tys : List Ty) (s : St), Grows s (visits tys s).2
  | [], s => .refl s
  | t :: ts, s => by simp only [visits]; exact (grows_visit t s).trans (grows_visits ts _)
end

/-! ### Types without elided lifetimes -/

theorem visitLts_explicit : ∀ (ls : List Lt) (s : St), ls.all (· != .elided) = true → visitLts ls s = (ls, s)
  | [], s, _ => rfl
  | .elided :: ls, s, h => by simp at h
  | .name x :: ls, s, h => by
    simp only [List.all_cons, Bool.and_eq_true] at h
    simp [visitLts, visitLt, visitLts_explicit ls s h.2]

mutual
theorem visit_explicit : ∀ (ty : Ty) (s : St), ty.explicit = true → visit ty s = (ty, s)
  | .path n lts args, s, h => by
    simp only [Ty.explicit, Bool.and_eq_true] at h
    simp [visit, visitLts_explicit lts s h.1, visits_explicit args s h.2]
  | .ref (some (.name x)) m ty, s, h => by
    simp only [Ty.explicit, Bool.true_and] at h
    simp [visit, visitLt, visit_explicit ty s h]
  | .ref (some .elided) m ty, s, h => by simp [Ty.explicit] at h
  | .ref none m ty, s, h => by simp [Ty.explicit] at h
  | .ptr m ty, s, h => by simp only [Ty.explicit] at h; simp [visit, visit_explicit ty s h]
  | .tuple tys, s, h => by simp only [Ty.explicit] at h; simp [visit, visits_explicit tys s h]
  | .dyn ts lts, s, h => by
    simp only [Ty.explicit, Bool.and_eq_true] at h
    simp [visit, visitLts_explicit lts s h.2, visits_explicit ts s h.1]
  | .fn b ps r, s, h => by
    simp only [Ty.explicit, Bool.and_eq_true] at h
    simp [visit, visits_explicit ps s h.1, visit_explicit r s h.2]
theorem visits_explicit : ∀ (tys : List Ty) (s : St), Ty.explicits tys = true → visits tys s = (tys, s)
  | [], s, _ => rfl
  | t :: ts, s, h => by
    simp only [Ty.explicits, Bool.and_eq_true] at h
    simp [visits, visit_explicit t s h.1, visits_explicit ts s h.2]
end

theorem evalLts_explicit (inner : List String) (σ : String → R) : ∀ ls : List Lt, ls.all (· != .elided) = true →
    ∃ gs, Lt.evals inner σ ls = some gs ∧ ∀ gs', Lt.Insts inner σ ls gs' ↔ gs' = gs
  | [], _ => ⟨[], rfl, fun gs' => by cases gs' <;> simp [Lt.Insts]⟩
  | .elided :: ls, h => by simp at h
  | .name x :: ls, h => by
    simp only [List.all_cons, Bool.and_eq_true] at h
    obtain ⟨gs, h1, h2⟩ := evalLts_explicit inner σ ls h.2
    refine ⟨_ :: gs, by simp only [Lt.evals, Lt.eval, h1]; rfl, fun gs' => ?_⟩
    cases gs' with
    | nil => simp [Lt.Insts]
    | cons g gs' => simp [Lt.Insts, Lt.Inst, h2]

mutual
theorem eval_explicit (σ : String → R) : ∀ (ty : Ty) (inner : List String), ty.explicit = true → ty.fnsOk = true →
    ∃ u, ty.eval inner σ = some u ∧ ∀ u', ty.Inst inner σ u' ↔ u' = u
  | .path n lts args, inner, h, hf => by
    simp only [Ty.explicit, Bool.and_eq_true] at h
    simp only [Ty.fnsOk] at hf
    obtain ⟨gs, h1, h2⟩ := evalLts_explicit inner σ lts h.1
    obtain ⟨us, h3, h4⟩ := evals_explicit σ args inner h.2 hf
    refine ⟨.path n gs us, by simp [Ty.eval, h1, h3], fun u' => ?_⟩
    cases u' <;> simp [Ty.Inst, h2, h4, eq_comm]
  | .ref (some (.name x)) m ty, inner, h, hf => by
    simp only [Ty.explicit, Bool.true_and] at h
    simp only [Ty.fnsOk] at hf
    obtain ⟨u, h3, h4⟩ := eval_explicit σ ty inner h hf
    refine ⟨.ref _ m u, by simp [Ty.eval, Lt.eval, h3]; rfl, fun u' => ?_⟩
    cases u' <;> simp [Ty.Inst, Lt.Inst, h4, eq_comm]
    grind
  | .ref (some .elided) m ty, inner, h, _ => by simp [Ty.explicit] at h
  | .ref none m ty, inner, h, _ => by simp [Ty.explicit] at h
  | .ptr m ty, inner, h, hf => by
    simp only [Ty.explicit] at h
    simp only [Ty.fnsOk] at hf
    obtain ⟨u, h3, h4⟩ := eval_explicit σ ty inner h hf
    refine ⟨.ptr m u, by simp [Ty.eval, h3], fun u' => ?_⟩
    cases u' <;> simp [Ty.Inst, h4, eq_comm]
  | .tuple tys, inner, h, hf => by
    simp only [Ty.explicit] at h
    simp only [Ty.fnsOk] at hf
    obtain ⟨us, h3, h4⟩ := evals_explicit σ tys inner h hf
    refine ⟨.tuple us, by simp [Ty.eval, h3], fun u' => ?_⟩
    cases u' <;> simp [Ty.Inst, h4]
  | .dyn ts lts, inner, h, hf => by
    simp only [Ty.explicit, Bool.and_eq_true] at h
    simp only [Ty.fnsOk] at hf
    obtain ⟨gs, h1, h2⟩ := evalLts_explicit inner σ lts h.2
    obtain ⟨us, h3, h4⟩ := evals_explicit σ ts inner h.1 hf
    refine ⟨.dyn us gs, by simp [Ty.eval, h1, h3], fun u' => ?_⟩
    cases u' <;> simp [Ty.Inst, h2, h4]
  | .fn b ps r, inner, h, hf => by
    simp only [Ty.explicit, Bool.and_eq_true] at h
    simp only [Ty.fnsOk, Bool.and_eq_true] at hf
    obtain ⟨us, h1, h2⟩ := evals_explicit σ ps (b ++ inner) h.1 hf.1.2
    obtain ⟨u, h3, h4⟩ := eval_explicit σ r (b ++ inner) h.2 hf.2
    refine ⟨.fn b us u, by simp [Ty.eval, h1, h3, hf.1.1.1.1], fun u' => ?_⟩
    cases u' <;> simp [Ty.Inst, h2, h4, eq_comm]
theorem evals_explicit (σ : String → R) : ∀ (tys : List Ty) (inner : List String), Ty.explicits tys = true → Ty.allFnsOk tys = true →
    ∃ us, Ty.evals inner σ tys = some us ∧ ∀ us', Ty.Insts inner σ tys us' ↔ us' = us
  | [], inner, _, _ => ⟨[], rfl, fun us' => by cases us' <;> simp [Ty.Insts]⟩
  | t :: ts, inner, h, hf => by
    simp only [Ty.explicits, Bool.and_eq_true] at h
    simp only [Ty.allFnsOk, Bool.and_eq_true] at hf
    obtain ⟨u, h1, h2⟩ := eval_explicit σ t inner h.1 hf.1
    obtain ⟨us, h3, h4⟩ := evals_explicit σ ts inner h.2 hf.2
    refine ⟨u :: us, by simp [Ty.evals, h1, h3], fun us' => ?_⟩
    cases us' <;> simp [Ty.Insts, h2, h4]
end

/-! ### The names that matter -/

theorem evalLts_congr {σ σ' : String → R} (inner : List String) : ∀ ls : List Lt, (∀ s, Lt.name s ∈ ls → σ' s = σ s) →
    Lt.evals inner σ' ls = Lt.evals inner σ ls
  | [], _ => rfl
  | .elided :: ls, _ => rfl
  | .name x :: ls, h => by
    simp only [Lt.evals, Lt.eval]
    rw [evalLts_congr inner ls fun s hs => h s (List.mem_cons_of_mem _ hs), h x (by simp)]

mutual
theorem eval_congr {σ σ' : String → R} : ∀ (ty : Ty) (inner : List String), (∀ s, Lt.name s ∈ ty.names → σ' s = σ s) →
    ty.eval inner σ' = ty.eval inner σ
  | .path n lts args, inner, h => by
    simp only [Ty.eval]
    rw [evalLts_congr inner lts fun s hs => h s (by simp [Ty.names, hs]), evals_congr args inner fun s hs => h s (by simp [Ty.names, hs])]
  | .ref (some l) m ty, inner, h => by
    simp only [Ty.eval]
    rw [eval_congr ty inner fun s hs => h s (by simp [Ty.names, hs])]
    cases l with
    | elided => rfl
    | name x => simp only [Lt.eval]; rw [h x (by simp [Ty.names])]
  | .ref none m ty, inner, h => rfl
  | .ptr m ty, inner, h => by
    simp only [Ty.eval]; rw [eval_congr ty inner fun s hs => h s (by simpa [Ty.names] using hs)]
  | .tuple tys, inner, h => by
    simp only [Ty.eval]; rw [evals_congr tys inner fun s hs => h s (by simpa [Ty.names] using hs)]
  | .dyn ts lts, inner, h => by
    simp only [Ty.eval]
    rw [evalLts_congr inner lts fun s hs => h s (by simp [Ty.names, hs]), evals_congr ts inner fun s hs => h s (by simp [Ty.names, hs])]
  | .fn b ps r, inner, h => by
    simp only [Ty.eval]
    rw [evals_congr ps (b ++ inner) fun s hs => h s (by simp [Ty.names, hs]), eval_congr r (b ++ inner) fun s hs => h s (by simp [Ty.names, hs])]
theorem evals_congr {σ σ' : String → R} : ∀ (tys : List Ty) (inner : List String), (∀ s, Lt.name s ∈ Ty.namesOf tys → σ' s = σ s) →
    Ty.evals inner σ' tys = Ty.evals inner σ tys
  | [], _, _ => rfl
  | t :: ts, inner, h => by
    simp only [Ty.evals]
    rw [eval_congr t inner fun s hs => h s (by simp [Ty.namesOf, hs]), evals_congr ts inner fun s hs => h s (by simp [Ty.namesOf, hs])]
end

/-! ### Each instance of the clause is one of the type as written -/

theorem sound_lt {σ τ : String → R} (l : Lt) (s : St) (ht : ∀ x, l = .name x → τ x = σ x) : ∃ g, (visitLt l s).1.eval [] σ = some g ∧ l.Inst [] τ g := by
  cases l with
  | elided => exact ⟨_, rfl, _, by simp; rfl⟩
  | name x => exact ⟨_, rfl, by simp [Lt.Inst, ht x rfl]⟩

theorem sound_lts {σ τ : String → R} : ∀ (ls : List Lt) (s : St), (∀ x, Lt.name x ∈ ls → τ x = σ x) →
    ∃ gs, Lt.evals [] σ (visitLts ls s).1 = some gs ∧ Lt.Insts [] τ ls gs
  | [], s, _ => ⟨[], rfl, trivial⟩
  | l :: ls, s, ht => by
    obtain ⟨g, h1, h2⟩ := sound_lt (σ := σ) (τ := τ) l s fun x hx => ht x (by simp [hx])
    obtain ⟨gs, h3, h4⟩ := sound_lts (σ := σ) ls (visitLt l s).2 fun x hx => ht x (by simp [hx])
    exact ⟨g :: gs, by simp [visitLts, Lt.evals, h1, h3], h2, h4⟩

mutual
theorem sound {σ τ : String → R} : ∀ (ty : Ty) (s : St), ty.fnsOk = true → (∀ x, Lt.name x ∈ ty.names → τ x = σ x) →
    ∃ u, (visit ty s).1.eval [] σ = some u ∧ ty.Inst [] τ u
  | .path n lts args, s, h, ht => by
    simp only [Ty.fnsOk] at h
    obtain ⟨gs, h1, h2⟩ := sound_lts (σ := σ) (τ := τ) lts s fun x hx => ht x (by simp [Ty.names, hx])
    obtain ⟨us, h3, h4⟩ := sounds (σ := σ) (τ := τ) args (visitLts lts s).2 h fun x hx => ht x (by simp [Ty.names, hx])
    exact ⟨.path n gs us, by simp [visit, Ty.eval, h1, h3], rfl, h2, h4⟩
  | .ref (some l) m ty, s, h, ht => by
    simp only [Ty.fnsOk] at h
    obtain ⟨g, h1, h2⟩ := sound_lt (σ := σ) (τ := τ) l s fun x hx => ht x (by simp [Ty.names, hx])
    obtain ⟨u, h3, h4⟩ := sound (σ := σ) (τ := τ) ty (visitLt l s).2 h fun x hx => ht x (by simp [Ty.names, hx])
    refine ⟨.ref g m u, by simp [visit, Ty.eval, h1, h3], ?_⟩
    rw [Ty.Inst]; exact ⟨rfl, h2, h4⟩
  | .ref none m ty, s, h, ht => by
    simp only [Ty.fnsOk] at h
    obtain ⟨u, h3, h4⟩ := sound (σ := σ) (τ := τ) ty s h fun x hx => ht x (by simp [Ty.names, hx])
    refine ⟨.ref (.free (σ (elidedName (visit ty s).2.counter))) m u, by simp [visit, Ty.eval, St.fresh, Lt.eval, h3], ?_⟩
    rw [Ty.Inst]; exact ⟨rfl, ⟨_, rfl⟩, h4⟩
  | .ptr m ty, s, h, ht => by
    simp only [Ty.fnsOk] at h
    obtain ⟨u, h3, h4⟩ := sound (σ := σ) (τ := τ) ty s h fun x hx => ht x (by simp [Ty.names, hx])
    exact ⟨.ptr m u, by simp [visit, Ty.eval, h3], rfl, h4⟩
  | .tuple tys, s, h, ht => by
    simp only [Ty.fnsOk] at h
    obtain ⟨us, h3, h4⟩ := sounds (σ := σ) (τ := τ) tys s h fun x hx => ht x (by simp [Ty.names, hx])
    exact ⟨.tuple us, by simp [visit, Ty.eval, h3], h4⟩
  | .dyn ts lts, s, h, ht => by
    simp only [Ty.fnsOk] at h
    obtain ⟨us, h3, h4⟩ := sounds (σ := σ) (τ := τ) ts s h fun x hx => ht x (by simp [Ty.names, hx])
    obtain ⟨gs, h1, h2⟩ := sound_lts (σ := σ) (τ := τ) lts (visits ts s).2 fun x hx => ht x (by simp [Ty.names, hx])
    exact ⟨.dyn us gs, by simp [visit, Ty.eval, h1, h3], h4, h2⟩
  | .fn b ps r, s, h, ht => by
    have he : (Ty.fn b ps r).explicit = true := by
      simp only [Ty.fnsOk, Bool.and_eq_true] at h
      simp [Ty.explicit, h.1.1.1.2, h.1.1.2]
    obtain ⟨u, h1, h2⟩ := eval_explicit τ (.fn b ps r) [] he h
    exact ⟨u, by rw [visit_explicit _ s he, ← eval_congr (.fn b ps r) [] ht]; exact h1, (h2 u).mpr rfl⟩
theorem sounds {σ τ : String → R} : ∀ (tys : List Ty) (s : St), Ty.allFnsOk tys = true → (∀ x, Lt.name x ∈ Ty.namesOf tys → τ x = σ x) →
    ∃ us, Ty.evals [] σ (visits tys s).1 = some us ∧ Ty.Insts [] τ tys us
  | [], s, _, _ => ⟨[], rfl, trivial⟩
  | t :: ts, s, h, ht => by
    simp only [Ty.allFnsOk, Bool.and_eq_true] at h
    obtain ⟨u, h1, h2⟩ := sound (σ := σ) (τ := τ) t s h.1 fun x hx => ht x (by simp [Ty.namesOf, hx])
    obtain ⟨us, h3, h4⟩ := sounds (σ := σ) (τ := τ) ts (visit t s).2 h.2 fun x hx => ht x (by simp [Ty.namesOf, hx])
    exact ⟨u :: us, by simp [visits, Ty.evals, h1, h3], h2, h4⟩
end

/-! ### Each instance of the type as written is one of the clause -/

/-- `σ'` gives the new lifetimes from number `k` on the meanings `rs`, and is `σ` elsewhere. -/
def Extends (σ σ' : String → R) (k : Nat) (rs : List R) : Prop :=
  (∀ s, ¬ Generated s → σ' s = σ s) ∧ ∀ (i : Nat) (r : R), rs[i]? = some r → σ' (elidedName (k + i)) = r

theorem Extends.left {σ σ' : String → R} {k : Nat} {rs rs' : List R} (h : Extends σ σ' k (rs ++ rs')) : Extends σ σ' k rs :=
  ⟨h.1, fun i r hr => h.2 i r (by rw [List.getElem?_append_left (List.getElem?_eq_some_iff.mp hr).1]; exact hr)⟩

theorem Extends.right {σ σ' : String → R} {k k' : Nat} {rs rs' : List R} (h : Extends σ σ' k (rs ++ rs')) (hk : k' = k + rs.length) :
    Extends σ σ' k' rs' :=
  ⟨h.1, fun i r hr => by
    have := h.2 (rs.length + i) r (by rw [List.getElem?_append_right (by omega), Nat.add_sub_cancel_left]; exact hr)
    rw [hk, Nat.add_assoc]; exact this⟩

/-- `U` is a meaning of what has been visited, the new lifetimes being chosen well. -/
def Reached {α β : Type} (eval : (String → R) → α → Option β) (σ : String → R) (s : St) (r : α × St) (u : β) : Prop :=
  ∃ rs, r.2.counter = s.counter + rs.length ∧ ∀ σ', Extends σ σ' s.counter rs → eval σ' r.1 = some u

theorem reached_pair {α β γ δ ε ζ : Type} {e1 : (String → R) → α → Option β} {e2 : (String → R) → γ → Option δ} {e3 : (String → R) → ε → Option ζ}
    {σ : String → R} {s : St} {r : α × St} {r' : γ × St} {u : β} {v : δ} (h : Reached e1 σ s r u) (h' : Reached e2 σ r.2 r' v) {x : ε} {w : ζ}
    (hx : ∀ σ', e1 σ' r.1 = some u → e2 σ' r'.1 = some v → e3 σ' x = some w) : Reached e3 σ s (x, r'.2) w := by
  obtain ⟨rs, h1, h2⟩ := h
  obtain ⟨rs', h3, h4⟩ := h'
  refine ⟨rs ++ rs', by simp only [List.length_append]; omega, fun σ' he => hx σ' (h2 σ' he.left) (h4 σ' ?_)⟩
  rw [h1]; exact he.right rfl

theorem reached_map {α β ε ζ : Type} {e1 : (String → R) → α → Option β} {e3 : (String → R) → ε → Option ζ}
    {σ : String → R} {s : St} {r : α × St} {u : β} (h : Reached e1 σ s r u) {x : ε} {w : ζ}
    (hx : ∀ σ', e1 σ' r.1 = some u → e3 σ' x = some w) : Reached e3 σ s (x, r.2) w := by
  obtain ⟨rs, h1, h2⟩ := h
  exact ⟨rs, h1, fun σ' he => hx σ' (h2 σ' he)⟩

abbrev evLt (σ : String → R) (l : Lt) := l.eval [] σ
abbrev evLts (σ : String → R) (l : List Lt) := Lt.evals [] σ l
abbrev ev (σ : String → R) (t : Ty) := t.eval [] σ
abbrev evs (σ : String → R) (t : List Ty) := Ty.evals [] σ t

theorem reached_fresh (σ : String → R) (s : St) (r : R) : Reached evLt σ s s.fresh (.free r) := by
  refine ⟨[r], rfl, fun σ' he => ?_⟩
  have := he.2 0 r rfl
  simp only [Nat.add_zero] at this
  simp [evLt, St.fresh, Lt.eval, this]

theorem reached_lt {σ : String → R} {l : Lt} (s : St) {g : Rg R} (hn : ∀ x, l = .name x → ¬ Generated x) (h : l.Inst [] σ g) :
    Reached evLt σ s (visitLt l s) g := by
  cases l with
  | elided => obtain ⟨r, rfl⟩ := h; exact reached_fresh σ s r
  | name x =>
    refine ⟨[], rfl, fun σ' he => ?_⟩
    simp only [Lt.Inst, List.not_mem_nil, if_false] at h
    simp [evLt, visitLt, Lt.eval, h, he.1 x (hn x rfl)]

theorem reached_lts {σ : String → R} : ∀ {ls : List Lt} (s : St) {gs : List (Rg R)}, (∀ x, Lt.name x ∈ ls → ¬ Generated x) → Lt.Insts [] σ ls gs →
    Reached evLts σ s (visitLts ls s) gs
  | [], s, [], _, _ => ⟨[], rfl, fun _ _ => rfl⟩
  | [], s, _ :: _, _, h => h.elim
  | _ :: _, s, [], _, h => h.elim
  | l :: ls, s, g :: gs, hn, h => by
    simp only [visitLts]
    refine reached_pair (reached_lt s (fun x hx => hn x (by simp [hx])) h.1)
      (reached_lts (visitLt l s).2 (fun x hx => hn x (List.mem_cons_of_mem _ hx)) h.2) fun σ' h1 h2 => ?_
    simp only [evLts, evLt] at *
    simp [Lt.evals, h1, h2]

mutual
theorem reached {σ : String → R} : ∀ {ty : Ty} (s : St) {u : RTy R}, ty.fnsOk = true → (∀ x, Lt.name x ∈ ty.names → ¬ Generated x) →
    ty.Inst [] σ u → Reached ev σ s (visit ty s) u
  | .path n lts args, s, .path n' gs us, hf, hn, h => by
    simp only [Ty.fnsOk] at hf
    obtain ⟨rfl, h1, h2⟩ := h
    simp only [visit]
    refine reached_pair (reached_lts s (fun x hx => hn x (by simp [Ty.names, hx])) h1)
      (reacheds _ hf (fun x hx => hn x (by simp [Ty.names, hx])) h2) fun σ' h1 h2 => ?_
    simp only [evLts, evs, ev] at *
    simp [Ty.eval, h1, h2]
  | .ref (some l) m ty, s, .ref g m' u, hf, hn, h => by
    simp only [Ty.fnsOk] at hf
    rw [Ty.Inst] at h
    obtain ⟨rfl, h1, h2⟩ := h
    simp only [visit]
    refine reached_pair (reached_lt s (fun x hx => hn x (by simp [Ty.names, hx])) h1)
      (reached _ hf (fun x hx => hn x (by simp [Ty.names, hx])) h2) fun σ' h1 h2 => ?_
    simp only [evLt, ev] at *
    simp [Ty.eval, h1, h2]
  | .ref none m ty, s, .ref g m' u, hf, hn, h => by
    simp only [Ty.fnsOk] at hf
    rw [Ty.Inst] at h
    obtain ⟨rfl, ⟨r, rfl⟩, h2⟩ := h
    simp only [visit]
    refine reached_pair (reached s hf (fun x hx => hn x (by simp [Ty.names, hx])) h2) (reached_fresh σ _ r) fun σ' h1 h2 => ?_
    simp only [evLt, ev] at *
    simp [Ty.eval, h1, h2]
  | .ptr m ty, s, .ptr m' u, hf, hn, h => by
    simp only [Ty.fnsOk] at hf
    obtain ⟨rfl, h2⟩ := h
    simp only [visit]
    refine reached_map (reached s hf (fun x hx => hn x (by simpa [Ty.names] using hx)) h2) fun σ' h1 => ?_
    simp only [ev] at *
    simp [Ty.eval, h1]
  | .tuple tys, s, .tuple us, hf, hn, h => by
    simp only [Ty.fnsOk] at hf
    simp only [visit]
    refine reached_map (reacheds s hf (fun x hx => hn x (by simpa [Ty.names] using hx)) h) fun σ' h1 => ?_
    simp only [ev, evs] at *
    simp [Ty.eval, h1]
  | .dyn ts lts, s, .dyn us gs, hf, hn, h => by
    simp only [Ty.fnsOk] at hf
    obtain ⟨h1, h2⟩ := h
    simp only [visit]
    refine reached_pair (reacheds s hf (fun x hx => hn x (by simp [Ty.names, hx])) h1)
      (reached_lts _ (fun x hx => hn x (by simp [Ty.names, hx])) h2) fun σ' h1 h2 => ?_
    simp only [evLts, evs, ev] at *
    simp [Ty.eval, h1, h2]
  | .fn b ps r, s, u, hf, hn, h => by
    have he : (Ty.fn b ps r).explicit = true := by
      simp only [Ty.fnsOk, Bool.and_eq_true] at hf
      simp [Ty.explicit, hf.1.1.1.2, hf.1.1.2]
    obtain ⟨u', h1, h2⟩ := eval_explicit σ (.fn b ps r) [] he hf
    have := (h2 u).mp h
    subst this
    rw [visit_explicit _ s he]
    refine ⟨[], rfl, fun σ' hex => ?_⟩
    rw [← h1]
    exact eval_congr _ [] fun x hx => hex.1 x (hn x hx)
  | .path .., s, .ref .., _, _, h | .path .., s, .ptr .., _, _, h | .path .., s, .tuple .., _, _, h | .path .., s, .dyn .., _, _, h
  | .path .., s, .fn .., _, _, h => by simp [Ty.Inst] at h
  | .ref (some _) _ _, s, .path .., _, _, h | .ref (some _) _ _, s, .ptr .., _, _, h | .ref (some _) _ _, s, .tuple .., _, _, h
  | .ref (some _) _ _, s, .dyn .., _, _, h | .ref (some _) _ _, s, .fn .., _, _, h => by simp [Ty.Inst] at h
  | .ref none _ _, s, .path .., _, _, h | .ref none _ _, s, .ptr .., _, _, h | .ref none _ _, s, .tuple .., _, _, h
  | .ref none _ _, s, .dyn .., _, _, h | .ref none _ _, s, .fn .., _, _, h => by simp [Ty.Inst] at h
  | .ptr .., s, .path .., _, _, h | .ptr .., s, .ref .., _, _, h | .ptr .., s, .tuple .., _, _, h | .ptr .., s, .dyn .., _, _, h
  | .ptr .., s, .fn .., _, _, h => by simp [Ty.Inst] at h
  | .tuple .., s, .path .., _, _, h | .tuple .., s, .ref .., _, _, h | .tuple .., s, .ptr .., _, _, h | .tuple .., s, .dyn .., _, _, h
  | .tuple .., s, .fn .., _, _, h => by simp [Ty.Inst] at h
  | .dyn .., s, .path .., _, _, h | .dyn .., s, .ref .., _, _, h | .dyn .., s, .ptr .., _, _, h | .dyn .., s, .tuple .., _, _, h
  | .dyn .., s, .fn .., _, _, h => by simp [Ty.Inst] at h
theorem reacheds {σ : String → R} : ∀ {tys : List Ty} (s : St) {us : List (RTy R)}, Ty.allFnsOk tys = true →
    (∀ x, Lt.name x ∈ Ty.namesOf tys → ¬ Generated x) → Ty.Insts [] σ tys us → Reached evs σ s (visits tys s) us
  | [], s, [], _, _, _ => ⟨[], rfl, fun _ _ => rfl⟩
  | [], s, _ :: _, _, _, h => h.elim
  | _ :: _, s, [], _, _, h => h.elim
  | t :: ts, s, u :: us, hf, hn, h => by
    simp only [Ty.allFnsOk, Bool.and_eq_true] at hf
    refine reached_pair (reached s hf.1 (fun x hx => hn x (by simp [Ty.namesOf, hx])) h.1)
      (reacheds _ hf.2 (fun x hx => hn x (by simp [Ty.namesOf, hx])) h.2) fun σ' h1 h2 => ?_
    simp only [evs, ev] at *
    simp [Ty.evals, h1, h2]
end

end Verif.Callback
