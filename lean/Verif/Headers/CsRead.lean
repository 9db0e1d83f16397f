import Verif.Headers.CsText
/-! # Reading C# declarations one after the other -/
namespace Verif.Headers.Cs
open Text

/-! ### Attributes, modifiers, types -/

/-- The tokens of attributes. -/
def attrToks (as : List Attr) : List Tok := as.flatMap fun a => .lb :: (a ++ [.rb])

/-- No attribute starts here. -/
def noAttr : List Tok → Bool
  | .lb :: _ => false
  | _ => true

theorem readAttrs_one (a cur : Attr) (h : Tok.rb ∉ a) (r : List Tok) :
    readAttrs (some cur) (a ++ .rb :: r) = (readAttrs none r).map fun (as, r) => ((cur ++ a) :: as, r) := by
  induction a generalizing cur with
  | nil => rw [List.append_nil]; rfl
  | cons t a ih =>
    have h1 : t ≠ .rb := fun e => h (by simp [e])
    rw [List.cons_append]
    have : readAttrs (some cur) (t :: (a ++ .rb :: r)) = readAttrs (some (cur ++ [t])) (a ++ .rb :: r) := by
      cases t <;> first | rfl | exact absurd rfl h1
    rw [this, ih _ fun hm => h (by simp [hm])]
    simp

theorem readAttrs_toks {as : List Attr} (h : ∀ a ∈ as, Tok.rb ∉ a) {r : List Tok} (hr : noAttr r = true) :
    readAttrs none (attrToks as ++ r) = some (as, r) := by
  induction as with
  | nil =>
    show readAttrs none r = _
    cases r with
    | nil => rfl
    | cons t r => cases t <;> first | rfl | cases hr
  | cons a as ih =>
    have e : attrToks (a :: as) ++ r = .lb :: (a ++ .rb :: (attrToks as ++ r)) := by simp [attrToks]
    rw [e, readAttrs, readAttrs_one _ _ (h a (by simp)), ih fun a ha => h a (by simp [ha])]
    rfl

theorem readMods_toks {mods : List Text} (h : ∀ w ∈ mods, w ∈ modifiers) {w : Text} (hw : w ∉ modifiers) (r : List Tok) :
    readMods (mods.map .id ++ .id w :: r) = (mods, .id w :: r) := by
  induction mods with
  | nil => show readMods (.id w :: r) = _; rw [readMods, if_neg hw]
  | cons m mods ih =>
    rw [List.map_cons, List.cons_append, readMods, if_pos (h m (by simp)), ih fun w hw => h w (by simp [hw])]

/-- The first word of a type. -/
def Ty.head : Ty → Text
  | .name n => n
  | .ptr t => t.head

theorem Ty.toks_head (T : Ty) : ∃ st, T.toks = .id T.head :: st ∧ ∀ r, readStars (.name T.head) (st ++ r) = readStars T r := by
  induction T with
  | name n => exact ⟨[], rfl, fun _ => rfl⟩
  | ptr t ih =>
    obtain ⟨st, h1, h2⟩ := ih
    refine ⟨st ++ [.star], by rw [Ty.toks, h1]; rfl, fun r => ?_⟩
    show readStars (.name t.head) _ = _
    rw [List.append_assoc, h2]
    rfl

theorem readVar_toks (T : Ty) (n : Text) (r : List Tok) : readVar (T.toks ++ .id n :: r) = some (T, n, r) := by
  obtain ⟨st, h1, h2⟩ := T.toks_head
  rw [h1, List.cons_append, readVar, h2]
  rfl

/-! ### Parameters -/

/-- The tokens of a variable. -/
def Var.toks (v : Var) : List Tok := attrToks v.attrs ++ (v.ty.toks ++ [.id v.name])

def Var.ok (v : Var) : Prop := ∀ a ∈ v.attrs, Tok.rb ∉ a

theorem noAttr_ty (T : Ty) (r : List Tok) : noAttr (T.toks ++ r) = true := by
  obtain ⟨st, h1, _⟩ := T.toks_head
  rw [h1]; rfl

theorem readParam {v : Var} (h : v.ok) (r : List Tok) : ∃ x, readAttrs none (v.toks ++ r) = some (v.attrs, x) ∧ readVar x = some (v.ty, v.name, r) := by
  refine ⟨v.ty.toks ++ .id v.name :: r, ?_, readVar_toks _ _ _⟩
  rw [Var.toks, List.append_assoc, List.append_assoc]
  exact readAttrs_toks h (noAttr_ty ..)

/-- The tokens of one or more parameters. -/
def paramToks : List Var → List Tok
  | [] => []
  | [v] => v.toks
  | v :: vs => v.toks ++ .comma :: paramToks vs

theorem readParams_toks {vs : List Var} (h : ∀ v ∈ vs, v.ok) (hne : vs ≠ []) (r : List Tok) :
    Ev (readParams · (paramToks vs ++ .rp :: r)) (vs, r) := by
  induction vs with
  | nil => exact absurd rfl hne
  | cons v vs ih =>
    cases vs with
    | nil =>
      obtain ⟨x, h1, h2⟩ := readParam (h v (by simp)) (.rp :: r)
      refine ⟨1, fun m hm => ?_⟩
      obtain ⟨m, rfl⟩ : ∃ k, m = k + 1 := ⟨m - 1, by omega⟩
      show readParams (m + 1) (v.toks ++ _) = _
      rw [readParams, h1]; simp only [h2]
    | cons v' vs =>
      obtain ⟨k, hk⟩ := ih (fun v hv => h v (by simp [hv])) (by simp)
      obtain ⟨x, h1, h2⟩ := readParam (h v (by simp)) (.comma :: (paramToks (v' :: vs) ++ .rp :: r))
      refine ⟨k + 1, fun m hm => ?_⟩
      obtain ⟨m, rfl⟩ : ∃ k, m = k + 1 := ⟨m - 1, by omega⟩
      have e : paramToks (v :: v' :: vs) ++ .rp :: r = v.toks ++ .comma :: (paramToks (v' :: vs) ++ .rp :: r) := by simp [paramToks]
      show readParams (m + 1) _ = _
      rw [e, readParams, h1]
      simp only [h2]
      have h3 := hk m (by omega)
      simp only at h3
      rw [h3]
      rfl

theorem paramToks_start {vs : List Var} (hne : vs ≠ []) (r : List Tok) : ∃ t x, paramToks vs ++ r = t :: x ∧ t ≠ .rp := by
  have key : ∀ (v : Var) (r : List Tok), ∃ t x, v.toks ++ r = t :: x ∧ t ≠ .rp := by
    intro v r
    rw [Var.toks]
    cases v.attrs with
    | nil =>
      obtain ⟨st, h1, _⟩ := v.ty.toks_head
      exact ⟨.id v.ty.head, _, by rw [h1]; rfl, nofun⟩
    | cons a as => exact ⟨.lb, _, rfl, nofun⟩
  cases vs with
  | nil => exact absurd rfl hne
  | cons v vs =>
    cases vs with
    | nil => exact key v r
    | cons v' vs => rw [paramToks, List.append_assoc]; exact key v _; exact nofun

theorem readSig_toks {vs : List Var} (h : ∀ v ∈ vs, v.ok) (r : List Tok) :
    Ev (readSig · (paramToks vs ++ .rp :: .semi :: r)) (vs, r) := by
  by_cases hne : vs = []
  · subst hne; exact ⟨0, fun _ _ => rfl⟩
  · obtain ⟨k, hk⟩ := readParams_toks h hne (.semi :: r)
    obtain ⟨t, x, e, ht⟩ := paramToks_start hne (.rp :: .semi :: r)
    refine ⟨k, fun m hm => ?_⟩
    have := hk m hm
    simp only [e] at this ⊢
    unfold readSig
    split
    · next e' => cases e'; exact absurd rfl ht
    · simp only [this]

theorem readUntil_toks {stop : Tok} {v : List Tok} (h : stop ∉ v) (r : List Tok) : readUntil stop (v ++ stop :: r) = some (v, r) := by
  induction v with
  | nil => rw [List.nil_append, readUntil, if_pos rfl]
  | cons t v ih =>
    rw [List.cons_append, readUntil, if_neg fun e => h (by simp [e]), ih fun hm => h (by simp [hm])]
    rfl

/-! ### Members -/

/-- Words that start no type. -/
def starts : List Text := modifiers ++ [kConst, kFixed, kStruct, kClass, kEnum, kDelegate, kUsing]

/-- The tokens of a member. -/
def Member.toks : Member → List Tok
  | .field mods v => attrToks v.attrs ++ (mods.map .id ++ (v.ty.toks ++ [.id v.name, .semi]))
  | .fixed mods ty n k => mods.map .id ++ .id kFixed :: (ty.toks ++ [.id n, .lb, .id k, .rb, .semi])
  | .const mods ty n v => mods.map .id ++ .id kConst :: (ty.toks ++ .id n :: .bad '=' :: (v ++ [.semi]))
  | .method as mods ret n ps => attrToks as ++ (mods.map .id ++ (ret.toks ++ .id n :: .lp :: (paramToks ps ++ [.rp, .semi])))

/-- It can be read. -/
def Member.ok : Member → Prop
  | .field mods v => (∀ w ∈ mods, w ∈ modifiers) ∧ v.ok ∧ v.ty.head ∉ starts
  | .fixed mods _ _ _ => ∀ w ∈ mods, w ∈ modifiers
  | .const mods _ _ v => (∀ w ∈ mods, w ∈ modifiers) ∧ Tok.semi ∉ v
  | .method as mods ret _ ps => (∀ w ∈ mods, w ∈ modifiers) ∧ (∀ a ∈ as, Tok.rb ∉ a) ∧ (∀ p ∈ ps, p.ok) ∧ ret.head ∉ starts

theorem noAttr_mods (mods : List Text) (w : Text) (r : List Tok) : noAttr (mods.map .id ++ .id w :: r) = true := by
  cases mods <;> rfl

theorem not_modifier {w : Text} (h : w ∉ starts) : w ∉ modifiers ∧ w ≠ kConst ∧ w ≠ kFixed :=
  ⟨fun hm => h (by simp [starts, hm]), fun e => h (by simp [starts, e]), fun e => h (by simp [starts, e])⟩

theorem readMember_toks {x : Member} (h : x.ok) (r : List Tok) : Ev (readMember · (x.toks ++ r)) (x, r) := by
  cases x with
  | field mods v =>
    obtain ⟨h1, h2, h3⟩ := h
    obtain ⟨st, e1, e2⟩ := v.ty.toks_head
    have e : Member.toks (.field mods v) ++ r = attrToks v.attrs ++ (mods.map .id ++ .id v.ty.head :: (st ++ .id v.name :: .semi :: r)) := by
      simp [Member.toks, e1]
    have hv := readVar_toks v.ty v.name (.semi :: r)
    rw [e1] at hv
    have hn := not_modifier h3
    refine ⟨0, fun m _ => ?_⟩
    simp only [e, readMember, readAttrs_toks h2 (noAttr_mods _ _ _), readMods_toks h1 hn.1, if_neg hn.2.1, if_neg hn.2.2]
    rw [List.cons_append] at hv
    simp only [hv]
  | fixed mods ty n k =>
    have e : Member.toks (.fixed mods ty n k) ++ r = attrToks [] ++ (mods.map .id ++ .id kFixed :: (ty.toks ++ .id n :: .lb :: .id k :: .rb :: .semi :: r)) := by
      simp [Member.toks, attrToks]
    refine ⟨0, fun m _ => ?_⟩
    simp only [e, readMember, readAttrs_toks (as := []) nofun (noAttr_mods _ _ _), readMods_toks h (by decide : kFixed ∉ modifiers),
      if_neg (by decide : kFixed ≠ kConst), if_pos, readVar_toks]
  | const mods ty n v =>
    have e : Member.toks (.const mods ty n v) ++ r = attrToks [] ++ (mods.map .id ++ .id kConst :: (ty.toks ++ .id n :: .bad '=' :: (v ++ .semi :: r))) := by
      simp [Member.toks, attrToks]
    refine ⟨0, fun m _ => ?_⟩
    simp only [e, readMember, readAttrs_toks (as := []) nofun (noAttr_mods _ _ _), readMods_toks h.1 (by decide : kConst ∉ modifiers),
      if_pos, readVar_toks, readUntil_toks h.2]
    rfl
  | method as mods ret n ps =>
    obtain ⟨h1, h2, h3, h4⟩ := h
    obtain ⟨st, e1, e2⟩ := ret.toks_head
    have e : Member.toks (.method as mods ret n ps) ++ r =
        attrToks as ++ (mods.map .id ++ .id ret.head :: (st ++ .id n :: .lp :: (paramToks ps ++ .rp :: .semi :: r))) := by
      simp [Member.toks, e1]
    have hv := readVar_toks ret n (.lp :: (paramToks ps ++ .rp :: .semi :: r))
    rw [e1] at hv
    have hn := not_modifier h4
    obtain ⟨k, hk⟩ := readSig_toks h3 r
    refine ⟨k, fun m hm => ?_⟩
    simp only [e, readMember, readAttrs_toks h2 (noAttr_mods _ _ _), readMods_toks h1 hn.1, if_neg hn.2.1, if_neg hn.2.2]
    rw [List.cons_append] at hv
    simp only [hv, hk m hm]
    rfl

/-- Something is there, and it is no brace. -/
def Begun (ts : List Tok) : Prop := ∃ t r, ts = t :: r ∧ ∀ c, t ≠ .bad c

theorem begun_attrs (as : List Attr) {ts : List Tok} (h : Begun ts) (r : List Tok) : Begun (attrToks as ++ (ts ++ r)) := by
  cases as with
  | nil => obtain ⟨t, x, rfl, h⟩ := h; exact ⟨t, x ++ r, rfl, h⟩
  | cons a as => exact ⟨_, _, rfl, fun _ h => Tok.noConfusion h⟩

theorem begun_mods (mods : List Text) {ts : List Tok} (h : Begun ts) : Begun (mods.map .id ++ ts) := by
  cases mods with
  | nil => exact h
  | cons a as => exact ⟨_, _, rfl, fun _ h => Tok.noConfusion h⟩

theorem begun_ty (T : Ty) (r : List Tok) : Begun (T.toks ++ r) := by
  obtain ⟨st, h1, _⟩ := T.toks_head
  exact ⟨.id T.head, _, by rw [h1]; rfl, fun _ h => Tok.noConfusion h⟩

theorem begun_member (x : Member) (r : List Tok) : Begun (x.toks ++ r) := by
  cases x with
  | field mods v => rw [Member.toks, List.append_assoc]; exact begun_attrs _ (begun_mods _ (begun_ty _ _)) _
  | fixed mods ty n k => rw [Member.toks]; exact begun_attrs [] (begun_mods _ ⟨_, _, rfl, fun _ h => Tok.noConfusion h⟩) _
  | const mods ty n v => rw [Member.toks]; exact begun_attrs [] (begun_mods _ ⟨_, _, rfl, fun _ h => Tok.noConfusion h⟩) _
  | method as mods ret n ps => rw [Member.toks, List.append_assoc]; exact begun_attrs _ (begun_mods _ (begun_ty _ _)) _

def memberToks (ms : List Member) : List Tok := ms.flatMap Member.toks

theorem readMembers_toks {ms : List Member} (h : ∀ x ∈ ms, x.ok) (r : List Tok) :
    Ev (readMembers · (memberToks ms ++ .bad '}' :: r)) (ms, r) := by
  induction ms with
  | nil => exact ⟨1, fun m hm => by obtain ⟨m, rfl⟩ : ∃ k, m = k + 1 := ⟨m - 1, by omega⟩; rfl⟩
  | cons x ms ih =>
    obtain ⟨k, hk⟩ := ih fun x hx => h x (by simp [hx])
    obtain ⟨k', hk'⟩ := readMember_toks (h x (by simp)) (memberToks ms ++ .bad '}' :: r)
    have e : memberToks (x :: ms) ++ .bad '}' :: r = x.toks ++ (memberToks ms ++ .bad '}' :: r) := by simp [memberToks]
    refine ⟨k + k' + 1, fun m hm => ?_⟩
    obtain ⟨m, rfl⟩ : ∃ k, m = k + 1 := ⟨m - 1, by omega⟩
    show readMembers (m + 1) (memberToks (x :: ms) ++ .bad '}' :: r) = _
    rw [e]
    obtain ⟨t, y, e', ht⟩ := begun_member x (memberToks ms ++ .bad '}' :: r)
    have h1 := hk' m (by omega)
    simp only [e'] at h1 ⊢
    rw [readMembers]
    · simp only [h1, hk m (by omega)]
      rfl
    · intro r' e; cases e; exact absurd rfl (ht '}')

/-! ### Enums -/

/-- The tokens of the constants of an enum; the values are in `vs`. -/
def constToks : List (Text × Option (List Tok)) → List Tok
  | [] => []
  | (n, none) :: vs => .id n :: .comma :: constToks vs
  | (n, some v) :: vs => .id n :: .bad '=' :: (v ++ .comma :: constToks vs)

theorem readConsts_toks {vs : List (Text × Option (List Tok))} (h : ∀ p ∈ vs, ∀ v, p.2 = some v → Tok.comma ∉ v) (r : List Tok) :
    Ev (readConsts · (constToks vs ++ .bad '}' :: r)) (vs.map (·.1), r) := by
  induction vs with
  | nil => exact ⟨1, fun m hm => by obtain ⟨m, rfl⟩ : ∃ k, m = k + 1 := ⟨m - 1, by omega⟩; rfl⟩
  | cons p vs ih =>
    obtain ⟨k, hk⟩ := ih fun p hp => h p (by simp [hp])
    refine ⟨k + 1, fun m hm => ?_⟩
    obtain ⟨m, rfl⟩ : ∃ k, m = k + 1 := ⟨m - 1, by omega⟩
    have h1 := hk m (by omega)
    obtain ⟨n, v⟩ := p
    cases v with
    | none =>
      show (readConsts m (constToks vs ++ .bad '}' :: r)).map _ = _
      simp only [h1]
      rfl
    | some v =>
      have e : constToks ((n, some v) :: vs) ++ .bad '}' :: r = .id n :: .bad '=' :: (v ++ .comma :: (constToks vs ++ .bad '}' :: r)) := by simp [constToks]
      show readConsts (m + 1) (constToks ((n, some v) :: vs) ++ .bad '}' :: r) = _
      rw [e, readConsts, readUntil_toks (h (n, some v) (by simp) v rfl)]
      simp only [h1]
      rfl

/-! ### Declarations -/

/-- The tokens are these declarations, whatever follows. -/
def Decls (toks : List Tok) (ds : List Decl) : Prop := ∀ r e, Ev (readDecls · r) e → Ev (readDecls · (toks ++ r)) (ds ++ e)

theorem Decls.nil : Decls [] [] := fun _ _ h => h

theorem Decls.append {a b : List Tok} {d e : List Decl} (ha : Decls a d) (hb : Decls b e) : Decls (a ++ b) (d ++ e) := by
  intro r x h
  rw [List.append_assoc, List.append_assoc]
  exact ha _ _ (hb _ _ h)

theorem Decls.one {ts : List Tok} {d : Decl} (hb : ∀ r, Begun (ts ++ r)) (h : ∀ r, Ev (readDecl · (ts ++ r)) (d, r)) : Decls ts [d] := by
  intro r e he
  obtain ⟨k, hk⟩ := he
  obtain ⟨k', hk'⟩ := h r
  refine ⟨k + k' + 1, fun m hm => ?_⟩
  obtain ⟨m, rfl⟩ : ∃ k, m = k + 1 := ⟨m - 1, by omega⟩
  obtain ⟨t, y, e', ht⟩ := hb r
  have h1 := hk' m (by omega)
  simp only [e'] at h1 ⊢
  rw [readDecls]
  · simp only [h1, hk m (by omega)]
    rfl
  · intro e; cases e; exact absurd rfl (ht '}')

theorem Decls.struct {as : List Attr} {mods : List Text} {n : Text} {ms : List Member} (ha : ∀ a ∈ as, Tok.rb ∉ a) (hm : ∀ w ∈ mods, w ∈ modifiers)
    (h : ∀ x ∈ ms, x.ok) : Decls (attrToks as ++ (mods.map .id ++ .id kStruct :: .id n :: .bad '{' :: (memberToks ms ++ [.bad '}']))) [.struct as mods n ms] := by
  refine .one (fun r => by rw [List.append_assoc]; exact begun_attrs _ (begun_mods _ ⟨_, _, rfl, fun _ h => Tok.noConfusion h⟩) _) fun r => ?_
  obtain ⟨k, hk⟩ := readMembers_toks h r
  refine ⟨k, fun m hm' => ?_⟩
  simp only [List.append_assoc, List.cons_append, readDecl, readAttrs_toks ha (noAttr_mods _ _ _), readMods_toks hm (by decide : kStruct ∉ modifiers),
    if_pos, List.nil_append, hk m hm']
  rfl

theorem Decls.cls {mods : List Text} {n : Text} {ms : List Member} (hm : ∀ w ∈ mods, w ∈ modifiers)
    (h : ∀ x ∈ ms, x.ok) : Decls (mods.map .id ++ .id kClass :: .id n :: .bad '{' :: (memberToks ms ++ [.bad '}'])) [.cls mods n ms] := by
  refine .one (fun r => by exact begun_attrs [] (begun_mods _ ⟨_, _, rfl, fun _ h => Tok.noConfusion h⟩) _) fun r => ?_
  obtain ⟨k, hk⟩ := readMembers_toks h r
  refine ⟨k, fun m hm' => ?_⟩
  have ha := readAttrs_toks (as := []) nofun (noAttr_mods mods kClass (.id n :: .bad '{' :: (memberToks ms ++ .bad '}' :: r)))
  rw [attrToks, List.flatMap_nil, List.nil_append] at ha
  simp only [List.append_assoc, List.cons_append, List.nil_append, readDecl, ha, readMods_toks hm (by decide : kClass ∉ modifiers),
    if_neg (by decide : kClass ≠ kStruct), if_pos, hk m hm']
  rfl

/-- The tokens between the name of an enum and the brace. -/
def baseToks : Option Text → List Tok
  | none => []
  | some b => [.bad ':', .id b]

theorem Decls.enum {mods : List Text} {n : Text} {b : Option Text} {vs : List (Text × Option (List Tok))} (hm : ∀ w ∈ mods, w ∈ modifiers)
    (h : ∀ p ∈ vs, ∀ v, p.2 = some v → Tok.comma ∉ v) :
    Decls (mods.map .id ++ .id kEnum :: .id n :: (baseToks b ++ .bad '{' :: (constToks vs ++ [.bad '}']))) [.enum mods n b (vs.map (·.1))] := by
  refine .one (fun r => by exact begun_attrs [] (begun_mods _ ⟨_, _, rfl, fun _ h => Tok.noConfusion h⟩) _) fun r => ?_
  obtain ⟨k, hk⟩ := readConsts_toks h r
  refine ⟨k, fun m hm' => ?_⟩
  have ha := readAttrs_toks (as := []) nofun (noAttr_mods mods kEnum (.id n :: (baseToks b ++ .bad '{' :: (constToks vs ++ .bad '}' :: r))))
  rw [attrToks, List.flatMap_nil, List.nil_append] at ha
  simp only [List.append_assoc, List.cons_append, List.nil_append, readDecl, ha, readMods_toks hm (by decide : kEnum ∉ modifiers),
    if_neg (by decide : kEnum ≠ kStruct), if_neg (by decide : kEnum ≠ kClass), if_pos]
  cases b with
  | none => simp only [baseToks, List.nil_append, hk m hm']; rfl
  | some b => simp only [baseToks, List.cons_append, List.nil_append, hk m hm']; rfl

theorem Decls.delegate {as : List Attr} {mods : List Text} {ret : Ty} {n : Text} {ps : List Var} (ha : ∀ a ∈ as, Tok.rb ∉ a) (hm : ∀ w ∈ mods, w ∈ modifiers)
    (h : ∀ p ∈ ps, p.ok) : Decls (attrToks as ++ (mods.map .id ++ .id kDelegate :: (ret.toks ++ .id n :: .lp :: (paramToks ps ++ [.rp, .semi])))) [.delegate as mods ret n ps] := by
  refine .one (fun r => by rw [List.append_assoc]; exact begun_attrs _ (begun_mods _ ⟨_, _, rfl, fun _ h => Tok.noConfusion h⟩) _) fun r => ?_
  obtain ⟨k, hk⟩ := readSig_toks h r
  refine ⟨k, fun m hm' => ?_⟩
  simp only [List.append_assoc, List.cons_append, readDecl, readAttrs_toks ha (noAttr_mods _ _ _), readMods_toks hm (by decide : kDelegate ∉ modifiers),
    if_neg (by decide : kDelegate ≠ kStruct), if_neg (by decide : kDelegate ≠ kClass), if_neg (by decide : kDelegate ≠ kEnum), if_pos, List.nil_append,
    readVar_toks, hk m hm']
  rfl

/-- The end of the namespace. -/
theorem Decls.ends {toks : List Tok} {ds : List Decl} (h : Decls toks ds) : Ev (readDecls · (toks ++ [.bad '}'])) ds := by
  have := h [.bad '}'] [] ⟨1, fun m hm => by obtain ⟨m, rfl⟩ : ∃ k, m = k + 1 := ⟨m - 1, by omega⟩; rfl⟩
  simpa using this

end Verif.Headers.Cs
