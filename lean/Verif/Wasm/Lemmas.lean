import Verif.Wasm.Spec
/-!
# Lemmas about the conversions on wasm
-/
namespace Verif.Wasm
open Text Headers Js

/-- `mem` holds the boxes of a conversion. -/
def Agrees (mem : Nat → Option (List UInt8)) (n : Nat) (boxes : List (List UInt8)) : Prop :=
  ∀ i bs, boxes[i]? = some bs → mem (n + i) = some bs

theorem Agrees.left {mem n} {a b : List (List UInt8)} (h : Agrees mem n (a ++ b)) : Agrees mem n a := by
  intro i bs hi
  refine h i bs ?_
  have hl : i < a.length := by
    rcases Nat.lt_or_ge i a.length with hl | hl
    · exact hl
    · rw [List.getElem?_eq_none hl] at hi; cases hi
  rw [List.getElem?_append_left hl]; exact hi

theorem Agrees.right {mem n} {a b : List (List UInt8)} (h : Agrees mem n (a ++ b)) : Agrees mem (n + a.length) b := by
  intro i bs hi
  have := h (a.length + i) bs (by rw [List.getElem?_append_right (by omega)]; simpa using hi)
  rw [Nat.add_assoc]; exact this

variable (K : Glue) (E : Env) (b : Nat → Text) (narrow : Num → Num)

/-! ### Everything that is converted can be read -/

theorem ptrW_reads (const : Bool) (to : CTy) (j : Js) (n : Nat) (p : WPtr) (h : (ptrW K E b const to j n).1 = .ok p) :
    ∃ val, ∀ mem, Agrees mem n (ptrW K E b const to j n).2 → (WVal.ptr p).read mem = some val := by
  have hobj : ∀ j', ptrObjW K E b const to j' = .ok p → ∃ a, p = .addr a := by
    intro j' h
    unfold ptrObjW at h
    split at h
    · cases h
    · dsimp only at h
      by_cases hc : (if const = true then constify ‹Text› else ‹Text›) ≠ ptrType b const to
      · rw [if_pos hc] at h; cases h
      · rw [if_neg hc] at h
        cases hi : intW K E .usize (prop t!"addr" j') <;> rw [hi] at h <;> simp only [Out.map] at h
        · cases h; exact ⟨_, rfl⟩
        · cases h
        · cases h
  unfold ptrW at h ⊢
  split at h
  · cases h; exact ⟨_, fun _ _ => rfl⟩
  · rename_i bytes
    split at h
    · rename_i hc
      simp only [hc, if_true]
      cases hf : fromBuffer E bytes <;> rw [hf] at h <;> simp only [Out.of, Out.map] at h
      · cases h
        refine ⟨.ptr (.mem bytes), fun mem hm => ?_⟩
        have := hm 0 bytes rfl
        simp only [Nat.add_zero] at this
        simp [WVal.read, this]
      · cases h
      · cases h
    · obtain ⟨a, rfl⟩ := hobj _ h; exact ⟨_, fun _ _ => rfl⟩
  · obtain ⟨a, rfl⟩ := hobj _ h; exact ⟨_, fun _ _ => rfl⟩
  · cases h

theorem map_ok {α β : Type} {f : α → β} {o : Out α} {y : β} (h : o.map f = .ok y) : ∃ x, o = .ok x ∧ f x = y := by
  cases o <;> simp only [Out.map] at h <;> cases h
  exact ⟨_, rfl, rfl⟩

mutual
theorem fromW_reads : ∀ (ty : JTy) (j : Js) (n : Nat) (v : WVal), (fromW K E b narrow ty j n).1 = .ok v →
    ∃ val, ∀ mem, Agrees mem n (fromW K E b narrow ty j n).2 → v.read mem = some val
  | .int k, j, n, v, h => by
    rw [fromW] at h; obtain ⟨x, _, rfl⟩ := map_ok h; exact ⟨_, fun _ _ => rfl⟩
  | .f32, j, n, v, h => by
    rw [fromW] at h; obtain ⟨x, _, rfl⟩ := map_ok h; exact ⟨_, fun _ _ => rfl⟩
  | .f64, j, n, v, h => by
    rw [fromW] at h; obtain ⟨x, _, rfl⟩ := map_ok h; exact ⟨_, fun _ _ => rfl⟩
  | .bool, j, n, v, h => by
    rw [fromW] at h; obtain ⟨x, _, rfl⟩ := map_ok h; exact ⟨_, fun _ _ => rfl⟩
  | .void, j, n, v, h => by
    rw [fromW] at h; cases h; exact ⟨_, fun _ _ => rfl⟩
  | .ptr const to, j, n, v, h => by
    rw [fromW] at h ⊢
    obtain ⟨p, hp, rfl⟩ := map_ok h
    exact ptrW_reads K E b const to j n p hp
  | .bytes len, j, n, v, h => by
    rw [fromW] at h; obtain ⟨x, _, rfl⟩ := map_ok h; exact ⟨_, fun _ _ => rfl⟩
  | .enum vs, j, n, v, h => by
    rw [fromW] at h; obtain ⟨x, _, rfl⟩ := map_ok h; exact ⟨_, fun _ _ => rfl⟩
  | .struct sl names fields, j, n, v, h => by
    rw [fromW.eq_def] at h ⊢
    dsimp only at h ⊢
    split at h
    · rename_i bs
      cases h
      refine ⟨.struct [.ptr (.mem bs), .int bs.length, .void], fun mem hm => ?_⟩
      have := hm 0 bs rfl
      simp only [Nat.add_zero] at this
      simp [WVal.read, reads, this]
    · cases h; exact ⟨_, fun _ _ => rfl⟩
    · split at h
      · rename_i ho
        rw [if_pos ho]
        obtain ⟨vs, hv, rfl⟩ := map_ok h
        obtain ⟨val, hr⟩ := propsW_reads names fields j n vs hv
        exact ⟨.struct val, fun mem hm => by rw [WVal.read, hr mem hm]; rfl⟩
      · cases h
theorem propsW_reads : ∀ (names : List Text) (tys : List JTy) (j : Js) (n : Nat) (vs : List WVal),
    (propsW K E b narrow names tys j n).1 = .ok vs →
      ∃ val, ∀ mem, Agrees mem n (propsW K E b narrow names tys j n).2 → reads mem vs = some val
  | [], tys, j, n, vs, h => by cases tys <;> (rw [propsW] at h <;> first | (cases h; exact ⟨_, fun _ _ => rfl⟩) | simp)
  | _ :: _, [], j, n, vs, h => by rw [propsW] at h <;> first | (cases h; exact ⟨_, fun _ _ => rfl⟩) | simp
  | name :: names, ty :: tys, j, n, vs, h => by
    rw [propsW] at h ⊢
    cases hc : fromW K E b narrow ty (prop name j) n with
    | mk o boxes =>
      rw [hc] at h
      cases o <;> simp only [Conv.bind] at h
      · rename_i v
        obtain ⟨ws, hw, rfl⟩ := map_ok h
        obtain ⟨x, hx⟩ := fromW_reads ty (prop name j) n v (by rw [hc])
        obtain ⟨xs, hxs⟩ := propsW_reads names tys j (n + boxes.length) ws hw
        refine ⟨x :: xs, fun mem hm => ?_⟩
        rw [hc] at hx
        simp only [Conv.bind] at hm
        simp [reads, hx mem hm.left, hxs mem hm.right]
      · cases h
      · cases h
end

theorem argsW_reads : ∀ (tys : List JTy) (js : List Js) (n : Nat) (vs : List WVal), (argsW K E b narrow tys js n).1 = .ok vs →
    ∃ val, ∀ mem, Agrees mem n (argsW K E b narrow tys js n).2 → reads mem vs = some val
  | [], [], n, vs, h => by rw [argsW] at h; cases h; exact ⟨_, fun _ _ => rfl⟩
  | [], _ :: _, n, vs, h => by rw [argsW] at h <;> simp at h ⊢
  | _ :: _, [], n, vs, h => by rw [argsW] at h <;> simp at h ⊢
  | ty :: tys, j :: js, n, vs, h => by
    rw [argsW] at h ⊢
    cases hc : fromW K E b narrow ty j n with
    | mk o boxes =>
      rw [hc] at h
      cases o <;> simp only [Conv.bind] at h
      · rename_i v
        obtain ⟨ws, hw, rfl⟩ := map_ok h
        obtain ⟨x, hx⟩ := fromW_reads K E b narrow ty j n v (by rw [hc])
        obtain ⟨xs, hxs⟩ := argsW_reads tys js (n + boxes.length) ws hw
        refine ⟨x :: xs, fun mem hm => ?_⟩
        rw [hc] at hx
        simp only [Conv.bind] at hm
        simp [reads, hx mem hm.left, hxs mem hm.right]
      · cases h
      · cases h

/-! ### Values of the expected types are converted as elsewhere -/

/-- The conversion gives what `r` says. -/
def Gives {α β : Type} (read : (Nat → Option (List UInt8)) → α → Option β) (n : Nat) (c : Conv α) (r : Res β) : Prop :=
  match r with
  | .ok val => ∃ v, c.1 = .ok v ∧ ∀ mem, Agrees mem n c.2 → read mem v = some val
  | .err e => c.1 = .err e
  | .panic => c.1 = .trap

theorem gives_plain {α : Type} {f : α → WVal} {g : α → Val} (hfg : ∀ mem a, (f a).read mem = some (g a)) (n : Nat) (r : Res α)
    (bx : List (List UInt8)) : Gives (fun mem v => WVal.read mem v) n ((Out.of r).map f, bx) (r.map g) := by
  cases r <;> simp [Gives, Out.of, Out.map, Res.map, Res.bind, hfg]

variable {K E b narrow}

theorem intW_typed (hK : K.Faithful) (k : IntTy) (j : Js) (h : small E k = true → ∃ x, j = .num x) :
    intW K E k j = .of (fromInt E k j) := by
  unfold intW
  split
  · rename_i hs
    obtain ⟨x, rfl⟩ := h hs
    rw [hK.num, fromInt, if_pos hs]; rfl
  · rfl

theorem ptrObjW_typed (hK : K.Faithful) (const : Bool) (to : CTy) (j : Js) (hty : ∃ s, prop t!"type" j = .str s)
    (had : ∃ x, prop t!"addr" j = .num x) (n : Nat) :
    Gives (fun mem v => WVal.read mem v) n ((ptrObjW K E b const to j).map .ptr, []) ((fromPtrObj E b const to j).map .ptr) := by
  obtain ⟨s, hs⟩ := hty
  unfold ptrObjW fromPtrObj
  rw [hs, hK.str]
  dsimp only
  by_cases hc : (if const = true then constify s else s) ≠ ptrType b const to
  · rw [if_pos hc, if_pos hc]; rfl
  · rw [if_neg hc, if_neg hc]
    rw [intW_typed hK .usize _ fun _ => had]
    cases fromInt E .usize (prop t!"addr" j) <;> simp [Gives, Out.of, Out.map, Res.map, Res.bind, WVal.read]

theorem ptrW_typed (hK : K.Faithful) (const : Bool) (to : CTy) (j : Js) (h : Typed E (.ptr const to) j) (n : Nat) :
    Gives (fun mem v => WVal.read mem v) n (((ptrW K E b const to j n).1.map .ptr), (ptrW K E b const to j n).2) ((fromPtr E b const to j).map .ptr) := by
  rw [Typed] at h
  cases j with
  | obj ps => exact ptrObjW_typed hK const to (.obj ps) (h.1 ps rfl).1 (h.1 ps rfl).2 n
  | buf bs =>
    obtain ⟨rfl, rfl⟩ := h.2 bs rfl
    simp only [ptrW, fromPtr, isCChar, Bool.and_self, if_true]
    have hb : ∀ p, fromBuffer E bs = .ok p → p = .mem bs := by
      intro p hp
      unfold fromBuffer at hp
      split at hp
      · cases hp
      · cases hl : lenMinusOne E bs.length <;> rw [hl] at hp <;> simp only [Res.bind] at hp
        · split at hp <;> cases hp
          rfl
        · cases hp
        · cases hp
    cases hf : fromBuffer E bs with
    | ok p =>
      rw [hb p hf]
      refine ⟨_, rfl, fun mem hm => ?_⟩
      have := hm 0 bs rfl
      simp only [Nat.add_zero] at this
      simp [WVal.read, this]
    | err e => rfl
    | panic => rfl
  | null => exact ⟨_, rfl, fun _ _ => rfl⟩
  | undefined => rfl
  | bool _ => rfl
  | num _ => rfl
  | bigint _ => rfl
  | str _ => rfl
  | other => rfl

theorem gives_cons {n : Nat} {c : Conv WVal} {r : Res Val} (h : Gives (fun mem v => WVal.read mem v) n c r)
    (d : Nat → Conv (List WVal)) (rs : Res (List Val)) (hd : ∀ n, Gives reads n (d n) rs) :
    Gives reads n (Conv.bind n c fun v n => ((d n).1.map (v :: ·), (d n).2)) (r.bind fun v => rs.map (v :: ·)) := by
  obtain ⟨o, bx⟩ := c
  cases r with
  | ok val =>
    obtain ⟨v, hv, hr⟩ := h
    have hv : o = .ok v := hv
    subst hv
    simp only [Conv.bind, Res.bind]
    have h2 := hd (n + bx.length)
    cases rs with
    | ok vals =>
      obtain ⟨vs, hvs, hrs⟩ := h2
      refine ⟨v :: vs, by simp [hvs, Out.map], fun mem hm => ?_⟩
      simp [reads, hr mem (Agrees.left hm), hrs mem (Agrees.right hm)]
    | err e => have h2 : (d (n + bx.length)).1 = .err e := h2; simp [Gives, Res.map, Res.bind, h2, Out.map]
    | panic => have h2 : (d (n + bx.length)).1 = .trap := h2; simp [Gives, Res.map, Res.bind, h2, Out.map]
  | err e => have h : o = .err e := h; subst h; rfl
  | panic => have h : o = .trap := h; subst h; rfl

mutual
theorem fromW_typed (hK : K.Faithful) : ∀ (ty : JTy) (j : Js), Typed E ty j → ∀ n,
    Gives (fun mem v => WVal.read mem v) n (fromW K E b narrow ty j n) (fromJs E b narrow ty j)
  | .int k, j, h, n => by
    rw [fromW, fromJs, intW_typed hK k j (by simpa only [Typed] using h)]
    exact gives_plain (fun _ _ => rfl) n _ _
  | .f32, j, h, n => by
    obtain ⟨x, rfl⟩ : ∃ x, j = .num x := by simpa only [Typed] using h
    rw [fromW, fromJs, hK.num]; exact gives_plain (fun _ _ => rfl) n _ _
  | .f64, j, h, n => by
    obtain ⟨x, rfl⟩ : ∃ x, j = .num x := by simpa only [Typed] using h
    rw [fromW, fromJs, hK.num]; exact gives_plain (fun _ _ => rfl) n _ _
  | .bool, j, h, n => by
    obtain ⟨x, rfl⟩ : ∃ x, j = .bool x := by simpa only [Typed] using h
    rw [fromW, fromJs, hK.bool]; exact ⟨_, rfl, fun _ _ => rfl⟩
  | .void, j, h, n => by
    have h : j = .undefined := by simpa only [Typed] using h
    subst h; rw [fromW, fromJs]; exact ⟨_, rfl, fun _ _ => rfl⟩
  | .ptr const to, j, h, n => by rw [fromW, fromJs]; exact ptrW_typed hK const to j h n
  | .bytes len, j, h, n => by
    obtain ⟨x, rfl⟩ : ∃ x, j = .buf x := by simpa only [Typed] using h
    rw [fromW, fromJs, hK.bytes]; exact gives_plain (fun _ _ => rfl) n _ _
  | .enum vs, j, h, n => by
    obtain ⟨x, rfl⟩ : ∃ x, j = .str x := by simpa only [Typed] using h
    rw [fromW, fromJs, hK.str]; exact gives_plain (fun _ _ => rfl) n _ _
  | .struct sl names fields, j, h, n => by
    rw [Typed] at h
    have hrest : (∀ bs, j = .buf bs → sl = false) → (j = .null → sl = false) →
        Gives (fun mem v => WVal.read mem v) n (if isObject j then let c := propsW K E b narrow names fields j n; (c.1.map .struct, c.2) else (.err .wrongType, []))
          (if isObject j then (fromProps E b narrow names fields j).map .struct else .err .wrongType) := by
      intro hb _
      by_cases ho : isObject j = true
      · rw [if_pos ho, if_pos ho]
        have ht : TypedProps E names fields j := by
          cases j with
          | obj ps => exact h.1 ps rfl
          | buf bs => exact (h.2 bs rfl).resolve_left (by simp [hb bs rfl])
          | _ => simp [isObject] at ho
        have hg := propsW_typed hK names fields j ht n
        cases hr : fromProps E b narrow names fields j with
        | ok vals =>
          rw [hr] at hg
          obtain ⟨vs, hvs, hrd⟩ := hg
          exact ⟨.struct vs, by simp [hvs, Out.map], fun mem hm => by show WVal.read mem (.struct vs) = _; rw [WVal.read, hrd mem hm]; rfl⟩
        | err e => rw [hr] at hg; have hg : (propsW K E b narrow names fields j n).1 = .err e := hg; simp [Gives, Res.map, Res.bind, hg, Out.map]
        | panic => rw [hr] at hg; have hg : (propsW K E b narrow names fields j n).1 = .trap := hg; simp [Gives, Res.map, Res.bind, hg, Out.map]
      · rw [if_neg ho, if_neg ho]; rfl
    cases sl with
    | false =>
      rw [fromW, fromJs]
      · exact hrest (fun _ _ => rfl) (fun _ => rfl)
      all_goals (intros; contradiction)
    | true =>
      cases j with
      | buf bs =>
        rw [fromW, fromJs]
        refine ⟨_, rfl, fun mem hm => ?_⟩
        have := hm 0 bs rfl
        simp only [Nat.add_zero] at this
        simp [WVal.read, reads, this]
      | null => rw [fromW, fromJs]; exact ⟨_, rfl, fun _ _ => rfl⟩
      | _ =>
        rw [fromW, fromJs]
        · exact hrest (fun _ h => by cases h) (fun h => by cases h)
        all_goals (intros; contradiction)
theorem propsW_typed (hK : K.Faithful) : ∀ (names : List Text) (tys : List JTy) (j : Js), TypedProps E names tys j → ∀ n,
    Gives reads n (propsW K E b narrow names tys j n) (fromProps E b narrow names tys j)
  | [], tys, j, _, n => by cases tys <;> exact ⟨[], by rw [propsW] <;> simp, fun _ _ => rfl⟩
  | _ :: _, [], j, _, n => ⟨[], by rw [propsW] <;> simp, fun _ _ => rfl⟩
  | name :: names, ty :: tys, j, h, n => by
    rw [TypedProps] at h
    rw [propsW, fromProps]
    exact gives_cons (fromW_typed hK ty (prop name j) h.1 n) (propsW K E b narrow names tys j) _
      (propsW_typed hK names tys j h.2)
end

theorem argsW_typed (hK : K.Faithful) : ∀ (tys : List JTy) (js : List Js), TypedArgs E tys js → ∀ n,
    Gives reads n (argsW K E b narrow tys js n) (fromArgs E b narrow tys js)
  | [], [], _, n => ⟨[], rfl, fun _ _ => rfl⟩
  | [], _ :: _, h, _ => by simp [TypedArgs] at h
  | _ :: _, [], h, _ => by simp [TypedArgs] at h
  | ty :: tys, j :: js, h, n => by
    rw [argsW, fromArgs]
    exact gives_cons (fromW_typed hK ty j h.1 n) (argsW K E b narrow tys js) _ (argsW_typed hK tys js h.2)

end Verif.Wasm
