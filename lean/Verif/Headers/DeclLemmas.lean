import Verif.Headers.CDecl
/-! # Lemmas about the lexer and the parser of C declarations -/
namespace Verif.Headers
open Text

/-! ### Lexing -/

theorem lexFrom_sep (cur a b : Text) {c : Char} (h : isWordChar c = false) :
    lexFrom cur (a ++ c :: b) = lexFrom cur a ++ (punct c ++ lex b) := by
  induction a generalizing cur with
  | nil => simp [lexFrom, h, lex]
  | cons x xs ih =>
    rw [List.cons_append, lexFrom, lexFrom]
    split
    · exact ih _
    · rw [ih]; simp

theorem lex_sep (a b : Text) {c : Char} (h : isWordChar c = false) :
    lex (a ++ c :: b) = lex a ++ (punct c ++ lex b) := lexFrom_sep [] a b h

theorem lex_cons (b : Text) {c : Char} (h : isWordChar c = false) : lex (c :: b) = punct c ++ lex b := by
  have := lex_sep [] b h
  simpa [lex, lexFrom, word] using this

theorem lex_nil : lex [] = [] := rfl

theorem lexFrom_word (cur w : Text) (h : ∀ c ∈ w, isWordChar c = true) : lexFrom cur w = word (cur ++ w) := by
  induction w generalizing cur with
  | nil => simp [lexFrom]
  | cons x xs ih =>
    rw [lexFrom, if_pos (h x (by simp)), ih _ (fun c hc => h c (by simp [hc]))]
    simp

theorem lex_word {w : Text} (h : IsWord w) : lex w = [.id w] := by
  have : w.isEmpty = false := by simpa using h.1
  rw [lex, lexFrom_word _ _ h.2]; simp [word, h.1]

theorem isWs_not_word {c : Char} (h : isWs c = true) : isWordChar c = false := by
  have : ∀ n : Nat, n < 128 → isWs (Char.ofNat n) = true → isWordChar (Char.ofNat n) = false := by decide +kernel
  by_cases hc : c.toNat < 128
  · have e : Char.ofNat c.toNat = c := Char.ofNat_toNat c
    have := this c.toNat hc
    rw [e] at this; exact this h
  · have h1 : c.isAlphanum = false := by
      rw [Bool.eq_false_iff]; intro ha
      have e : c.toNat = c.val.toNat := rfl
      simp only [Char.isAlphanum, Char.isAlpha, Char.isUpper, Char.isLower, Char.isDigit, Bool.or_eq_true,
        Bool.and_eq_true, decide_eq_true_eq, UInt32.le_iff_toNat_le, GE.ge] at ha
      have h3 : 'Z'.val.toNat = 90 := rfl
      have h4 : 'z'.val.toNat = 122 := rfl
      have h5 : '9'.val.toNat = 57 := rfl
      simp only [h3, h4, h5] at ha
      omega
    have h2 : (c == '_') = false := by
      rw [beq_eq_false_iff_ne]; rintro rfl; exact hc (by decide)
    simp [isWordChar, h1, h2, h]

theorem punct_ws {c : Char} (h : isWs c = true) : punct c = [] := by simp [punct, h]

theorem lex_ws_cons (b : Text) {c : Char} (h : isWs c = true) : lex (c :: b) = lex b := by
  rw [lex_cons _ (isWs_not_word h), punct_ws h]; rfl

theorem lex_sepv (v : Text) : lex (sep v ++ v) = lex v := by
  rw [sep]; split
  · rfl
  · exact lex_ws_cons _ (by decide)

theorem lex_word_sep {w : Text} (h : IsWord w) (v : Text) : lex (w ++ sep v ++ v) = .id w :: lex v := by
  cases v with
  | nil => simp [sep, lex_word h, lex_nil]
  | cons c cs =>
    show lex (w ++ [' '] ++ (c :: cs)) = _
    rw [List.append_assoc, List.singleton_append, lex_sep _ _ (by decide), lex_word h]
    rfl

/-! ### Eventually -/

/-- The bounded parser answers `x` once the bound is large enough. -/
def Ev {α} (f : Nat → Option α) (x : α) : Prop := ∃ k, ∀ m, k ≤ m → f m = some x

theorem Ev.step {α} {f h : Nat → Option α} {x : α} (hf : ∀ m, f (m + 1) = h m) : Ev h x → Ev f x := by
  rintro ⟨k, hk⟩
  refine ⟨k + 1, fun m hm => ?_⟩
  obtain ⟨m, rfl⟩ : ∃ m', m = m' + 1 := ⟨m - 1, by omega⟩
  rw [hf, hk m (by omega)]

theorem Ev.map {α β} {f : Nat → Option α} {x : α} (g : α → β) : Ev f x → Ev (fun m => (f m).map g) (g x) := by
  rintro ⟨k, hk⟩
  exact ⟨k, fun m hm => by simp [hk m hm]⟩

theorem Ev.const {α} (x : α) : Ev (fun _ => some x) x := ⟨0, fun _ _ => rfl⟩

/-- If `f` answers `x`, replace it by its answer. -/
theorem Ev.subst {α β} {f : Nat → Option α} {x : α} {F : Nat → Option α → Option β} {y : β}
    (hf : Ev f x) (h : Ev (fun m => F m (some x)) y) : Ev (fun m => F m (f m)) y := by
  obtain ⟨k, hk⟩ := hf
  obtain ⟨l, hl⟩ := h
  refine ⟨max k l, fun m hm => ?_⟩
  show F m (f m) = _
  rw [hk m (by omega)]
  exact hl m (by omega)

theorem Ev.unique {α} {f : Nat → Option α} {x y : α} (h : Ev f x) (h' : Ev f y) : x = y := by
  obtain ⟨k, hk⟩ := h
  obtain ⟨l, hl⟩ := h'
  have := (hk (max k l) (by omega)).symm.trans (hl (max k l) (by omega))
  simpa using this

/-! ### Declarators -/

/-- What may follow a declarator. -/
def OkRest : List Tok → Prop
  | [] | .rp :: _ | .comma :: _ | .semi :: _ => True
  | _ => False

theorem suffixes_ok {r : List Tok} (h : OkRest r) : Ev (suffixes · r) (fun b => b, r) := by
  refine Ev.step (h := fun _ => some (fun b => b, r)) (fun m => ?_) (.const _)
  match r, h with
  | [], _ => rfl
  | .rp :: _, _ => rfl
  | .comma :: _, _ => rfl
  | .semi :: _, _ => rfl

/-- These tokens are a direct declarator of the name `n`, with the type `g`. -/
structure Direct (vt : List Tok) (n : Option Text) (g : CT → CT) : Prop where
  reads : ∀ r, OkRest r → Ev (direct · (vt ++ r)) (n, g, r)
  noStar : ∀ ts, vt ≠ .star :: ts
  noConst : ∀ ts, vt ≠ .id kconst :: ts

theorem Direct.nil : Direct [] none fun b => b where
  reads r h := by
    refine Ev.step (h := fun m => (suffixes m r).map fun (g, r) => (none, g, r)) (fun m => ?_) ((suffixes_ok h).map _)
    match r, h with
    | [], _ => rfl
    | .rp :: _, _ => rfl
    | .comma :: _, _ => rfl
    | .semi :: _, _ => rfl
  noStar := by simp
  noConst := by simp

theorem Direct.id {x : Text} (hx : x ≠ kconst) : Direct [.id x] (some x) fun b => b where
  reads r h := Ev.step (h := fun m => (suffixes m r).map fun (g, r) => (some x, g, r)) (fun _ => rfl) ((suffixes_ok h).map _)
  noStar := by simp
  noConst ts e := by simp at e; exact hx e.1

theorem Direct.array {x n : Text} (hx : x ≠ kconst) :
    Direct [.id x, .lb, .id n, .rb] (some x) fun b => CT.array n b where
  reads r h := by
    refine Ev.step (h := fun m => (suffixes m (.lb :: .id n :: .rb :: r)).map fun (g, r) => (some x, g, r)) (fun _ => rfl) ?_
    refine Ev.map (fun (g, r) => (some x, g, r)) (x := (fun b => CT.array n b, r)) ?_
    exact Ev.step (h := fun m => (suffixes m r).map fun (g, r) => (fun b => CT.array n (g b), r)) (fun _ => rfl)
      ((suffixes_ok h).map _)
  noStar := by simp
  noConst ts e := by simp at e; exact hx e.1

/-- A declarator in front of which the type `base` stands. -/
def After (base : CT) (R : List Tok) (res : Option Text × CT × List Tok) : Prop :=
  Ev (fun m => (declarator m R).map fun (n, f, r) => (n, f base, r)) res

theorem declarator_direct {R : List Tok} (h : ∀ ts, R ≠ .star :: ts) (m : Nat) : declarator (m + 1) R = direct m R := by
  cases R with
  | nil => rfl
  | cons x xs => cases x <;> first | rfl | exact absurd rfl (h xs)

theorem Direct.after {vt : List Tok} {n : Option Text} {g : CT → CT} (h : Direct vt n g) {r : List Tok} (hr : OkRest r)
    (base : CT) : After base (vt ++ r) (n, g base, r) := by
  refine Ev.map (fun (n, f, r) => (n, f base, r)) (x := (n, g, r)) ?_
  refine Ev.step (declarator_direct ?_) (h.reads r hr)
  intro ts e
  cases vt with
  | nil => rw [List.nil_append] at e; subst e; exact hr
  | cons x xs => simp at e; exact h.noStar xs (by rw [e.1])

theorem After.star {base : CT} {R : List Tok} {res} (hc : ∀ ts, R ≠ .id kconst :: ts) (h : After (.ptr base) R res) :
    After base (.star :: R) res := by
  refine Ev.step (fun m => ?_) h
  cases R with
  | nil => simp [declarator]; rfl
  | cons x xs =>
    cases x with
    | id w =>
      have : w ≠ kconst := fun e => hc xs (by rw [e])
      simp [declarator, this]; rfl
    | _ => simp [declarator]; rfl

theorem After.starConst {base : CT} {R : List Tok} {res} (h : After (.const (.ptr base)) R res) :
    After base (.star :: .id kconst :: R) res := by
  refine Ev.step (fun m => ?_) h
  simp [declarator]; rfl

theorem declaration_name {w : Text} (hw : w ≠ kconst) {R : List Tok} {res} (hc : ∀ ts, R ≠ .id kconst :: ts)
    (h : After (.name w) R res) : Ev (declaration · (.id w :: R)) res := by
  refine Ev.step (fun m => ?_) h
  cases R with
  | nil => simp [declaration, hw]
  | cons x xs =>
    cases x with
    | id c =>
      have : c ≠ kconst := fun e => hc xs (by rw [e])
      simp [declaration, this, hw]
    | _ => simp [declaration, hw]

theorem declaration_const {w : Text} (hw : w ≠ kconst) {R : List Tok} {res}
    (h : After (.const (.name w)) R res) : Ev (declaration · (.id w :: .id kconst :: R)) res := by
  refine Ev.step (fun m => ?_) h
  simp [declaration, hw]

/-- These tokens are a type name followed by pointers: the type `T` is in front of what comes next. -/
structure Front (ts : List Tok) (T : CT) : Prop where
  plain : ∀ R res, (∀ ts, R ≠ .id kconst :: ts) → After T R res → Ev (declaration · (ts ++ R)) res
  const : ∀ R res, After (.const T) R res → Ev (declaration · (ts ++ .id kconst :: R)) res

theorem Front.name {w : Text} (hw : w ≠ kconst) : Front [.id w] (.name w) where
  plain _ _ hc h := declaration_name hw hc h
  const _ _ h := declaration_const hw h

theorem Front.star {ts : List Tok} {T : CT} (h : Front ts T) : Front (ts ++ [.star]) (.ptr T) where
  plain R res hc ha := by
    rw [List.append_assoc, List.singleton_append]
    exact h.plain _ _ (by simp) (ha.star hc)
  const R res ha := by
    rw [List.append_assoc, List.singleton_append]
    exact h.plain _ _ (by simp) ha.starConst

theorem Front.constStar {ts : List Tok} {T : CT} (h : Front ts T) :
    Front (ts ++ [.id kconst, .star]) (.ptr (.const T)) where
  plain R res hc ha := by
    rw [List.append_assoc]
    exact h.const _ _ (ha.star hc)
  const R res ha := by
    rw [List.append_assoc]
    exact h.const _ _ ha.starConst

/-- Parameters after an opening parenthesis, up to the closing one. -/
def Params (ts : List Tok) (ps : List (Option Text × CT)) : Prop :=
  ∀ r, Ev (params · (ts ++ .rp :: r)) (ps, r)

theorem Params.one {ts : List Tok} {n : Option Text} {T : CT} (hT : T ≠ .name kvoid)
    (h : ∀ r, OkRest r → Ev (declaration · (ts ++ r)) (n, T, r)) : Params ts [(n, T)] := by
  intro r
  refine Ev.step (fun m => rfl) ?_
  refine Ev.subst (f := fun m => declaration m (ts ++ .rp :: r)) (h (.rp :: r) trivial)
    (F := fun m o => afterParam (params m) o) ?_
  refine ⟨0, fun m _ => ?_⟩
  dsimp only
  rw [afterParam]
  intro e; exact hT e

theorem Params.cons {ts us : List Tok} {n : Option Text} {T : CT} {ps : List (Option Text × CT)} (hT : T ≠ .name kvoid)
    (h : ∀ r, OkRest r → Ev (declaration · (ts ++ r)) (n, T, r)) (hp : Params us ps) :
    Params (ts ++ .comma :: us) ((n, T) :: ps) := by
  intro r
  rw [List.append_assoc, List.cons_append]
  refine Ev.step (fun m => rfl) ?_
  refine Ev.subst (f := fun m => declaration m (ts ++ .comma :: (us ++ .rp :: r))) (h (.comma :: _) trivial)
    (F := fun m o => afterParam (params m) o) ?_
  obtain ⟨k, hk⟩ := hp r
  refine ⟨k, fun m hm => ?_⟩
  dsimp only
  rw [afterParam]
  · have := hk m hm
    dsimp only at this
    rw [this]; rfl
  · intro e; exact hT e

/-- Parameters in parentheses. -/
def Parens (ts : List Tok) (ps : List (Option Text × CT)) : Prop :=
  ∀ r, OkRest r → Ev (suffixes · (.lp :: ts ++ .rp :: r)) (fun b => .fn b ps, r)

theorem Parens.void : Parens [.id kvoid] [] := by
  intro r hr
  refine Ev.step (h := fun m => (suffixes m r).map fun (g, r) => (fun b => .fn (g b) [], r)) (fun m => ?_) ((suffixes_ok hr).map _)
  simp [suffixes]

theorem suffixes_lp {X : List Tok} (h : ∀ ts, X ≠ .id kvoid :: .rp :: ts) (m : Nat) :
    suffixes (m + 1) (.lp :: X) = afterParams (suffixes m) (params m X) := by
  match X, h with
  | [], _ => rfl
  | .id w :: [], _ => rfl
  | .id w :: .rp :: ts, h =>
    have : w ≠ kvoid := fun e => h ts (by rw [e])
    simp [suffixes, this]
  | .id w :: .id _ :: ts, _ => rfl
  | .id w :: .star :: ts, _ => rfl
  | .id w :: .lp :: ts, _ => rfl
  | .id w :: .lb :: ts, _ => rfl
  | .id w :: .rb :: ts, _ => rfl
  | .id w :: .comma :: ts, _ => rfl
  | .id w :: .semi :: ts, _ => rfl
  | .id w :: .bad _ :: ts, _ => rfl
  | .star :: ts, _ => rfl
  | .lp :: ts, _ => rfl
  | .rp :: ts, _ => rfl
  | .lb :: ts, _ => rfl
  | .rb :: ts, _ => rfl
  | .comma :: ts, _ => rfl
  | .semi :: ts, _ => rfl
  | .bad _ :: ts, _ => rfl

/-- `void)` is not a parameter list. -/
theorem Params.notVoid {ts : List Tok} {ps : List (Option Text × CT)} (h : Params ts ps) (r : List Tok) (us : List Tok) :
    ts ++ .rp :: r ≠ .id kvoid :: .rp :: us := by
  intro e
  obtain ⟨k, hk⟩ := h r
  rw [e] at hk
  have h1 := hk (k + 3) (by omega)
  dsimp only at h1
  have : declaration (k + 2) (.id kvoid :: .rp :: us) = (declarator (k + 1) (.rp :: us)).map fun (n, f, r) => (n, f (.name kvoid), r) := by
    simp [declaration]
  rw [params, this, declarator_direct (by simp)] at h1
  cases k with
  | zero => simp [direct, afterParam] at h1
  | succ k =>
    cases k with
    | zero => simp [direct, suffixes, afterParam] at h1
    | succ k => simp [direct, suffixes, afterParam] at h1

theorem Params.parens {ts : List Tok} {ps : List (Option Text × CT)} (h : Params ts ps) : Parens ts ps := by
  intro r hr
  rw [List.cons_append]
  refine Ev.step (suffixes_lp (h.notVoid r)) ?_
  refine Ev.subst (f := fun m => params m (ts ++ .rp :: r)) (h r) (F := fun m o => afterParams (suffixes m) o) ?_
  exact (suffixes_ok hr).map _

theorem Direct.fn {x : Text} (hx : x ≠ kconst) {ts : List Tok} {ps : List (Option Text × CT)} (h : Parens ts ps) :
    Direct (.id x :: .lp :: ts ++ [.rp]) (some x) fun b => .fn b ps where
  reads r hr := by
    refine Ev.step (h := fun m => (suffixes m (.lp :: ts ++ .rp :: r)).map fun (g, r) => (some x, g, r)) (fun m => ?_) ((h r hr).map _)
    simp [direct]
  noStar := by simp
  noConst ts e := by simp at e; exact hx e.1

/-- `(* v )( parameters )` -/
theorem Direct.group {vt : List Tok} {n : Option Text} {g : CT → CT} (h : Direct vt n g) {ts : List Tok}
    {ps : List (Option Text × CT)} (hp : Parens ts ps) {r : List Tok} (hr : OkRest r) (base : CT) :
    After base (.lp :: .star :: vt ++ (.rp :: .lp :: ts ++ .rp :: r)) (n, g (.ptr (.fn base ps)), r) := by
  refine Ev.map (fun (n, f, r) => (n, f base, r)) (x := (n, fun b => g (.ptr (.fn b ps)), r)) ?_
  refine Ev.step (declarator_direct (by simp)) ?_
  refine Ev.step (h := fun m => afterNested (suffixes m) (declarator m (.star :: (vt ++ (.rp :: .lp :: ts ++ .rp :: r)))))
    (fun m => ?_) ?_
  · rfl
  · refine Ev.subst (f := fun m => declarator m (.star :: (vt ++ (.rp :: .lp :: ts ++ .rp :: r))))
      (x := (n, fun b => g (.ptr b), .rp :: .lp :: ts ++ .rp :: r)) ?_ (F := fun m o => afterNested (suffixes m) o) ?_
    · have h1 : ∀ us, vt ++ (.rp :: .lp :: ts ++ .rp :: r) ≠ .id kconst :: us := by
        intro us e
        cases vt with
        | nil => simp at e
        | cons y ys => simp at e; exact h.noConst ys (by rw [e.1])
      have h2 : ∀ us, vt ++ (.rp :: .lp :: ts ++ .rp :: r) ≠ .star :: us := by
        intro us e
        cases vt with
        | nil => simp at e
        | cons y ys => simp at e; exact h.noStar ys (by rw [e.1])
      have hd : Ev (declarator · (vt ++ (.rp :: .lp :: ts ++ .rp :: r))) (n, g, .rp :: .lp :: ts ++ .rp :: r) :=
        Ev.step (declarator_direct h2) (h.reads _ trivial)
      refine Ev.step (fun m => ?_) (hd.map fun (n, f, r) => (n, fun b => f (.ptr b), r))
      generalize vt ++ (.rp :: .lp :: ts ++ .rp :: r) = R at h1
      cases R with
      | nil => rfl
      | cons y ys =>
        cases y with
        | id w =>
          have : w ≠ kconst := fun e => h1 ys (by rw [e])
          simp [declarator, this]
        | _ => rfl
    · exact (hp r hr).map _

end Verif.Headers
