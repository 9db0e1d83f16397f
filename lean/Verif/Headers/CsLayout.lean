import Verif.Headers.CsFile
import Verif.Headers.CsCover
import Verif.Headers.AbiLayout
/-! # Layouts of the C# types and the Rust types -/
namespace Verif.Headers.Cs
open Text Layout

/-! ### Characters as bytes -/

/-- A character as a byte. -/
def byteOf : Scalar → Scalar
  | .char => .int false 1
  | s => s

theorem bytes_scalar (s : Scalar) : (Shape.scalar s).bytes = .scalar (byteOf s) := by cases s <;> rfl

theorem byte_lay (A : Abi) (s : Scalar) : ((byteOf s).size A.word, A.align (byteOf s)) = (s.size A.word, A.align s) := by
  cases s with
  | char =>
    have h1 := Nat.dvd_one.1 (A.dvd .char)
    have h2 := Nat.dvd_one.1 (A.dvd (.int false 1))
    rw [byteOf, h1, h2]; rfl
  | _ => rfl

mutual
theorem bytes_lay (A : Abi) : ∀ s : Shape, s.bytes.lay A = s.lay A
  | .scalar s => by rw [bytes_scalar]; exact byte_lay A s
  | .array n s => by rw [Shape.bytes, Shape.lay, Shape.lay, bytes_lay A s]
  | .struct ms => by rw [Shape.bytes, Shape.lay, Shape.lay, bytes_lays A ms]
theorem bytes_lays (A : Abi) : ∀ ss : List Shape, lays A (bytesAll ss) = lays A ss
  | [] => rfl
  | s :: ss => by rw [bytesAll, lays, lays, bytes_lay A s, bytes_lays A ss]
end

mutual
theorem bytes_scalars (A : Abi) : ∀ (s : Shape) (a : Nat), s.bytes.scalars A a = (s.scalars A a).map fun p => (p.1, byteOf p.2)
  | .scalar s, a => by rw [bytes_scalar]; rfl
  | .array n s, a => by
    rw [Shape.bytes, Shape.scalars, Shape.scalars, bytes_lay A s, List.map_flatMap]
    exact congrArg (List.flatMap · _) (funext fun i => bytes_scalars A s _)
  | .struct ms, a => by rw [Shape.bytes, Shape.scalars, Shape.scalars, bytes_lays A ms, bytes_scalarsAll A ms]
theorem bytes_scalarsAll (A : Abi) : ∀ (ss : List Shape) (os : List Nat) (a : Nat),
    scalarsAll A (bytesAll ss) os a = (scalarsAll A ss os a).map fun p => (p.1, byteOf p.2)
  | [], _, _ => by rw [bytesAll]; simp [scalarsAll]
  | s :: ss, [], _ => by rw [bytesAll]; simp [scalarsAll]
  | s :: ss, o :: os, a => by rw [bytesAll, scalarsAll, scalarsAll, List.map_append, bytes_scalars A s, bytes_scalarsAll A ss]
end

/-! ### Arrays as structs -/

theorem lays_replicate (A : Abi) (n : Nat) (s : Shape) : lays A (List.replicate n s) = List.replicate n (s.lay A) := by
  induction n with
  | zero => rfl
  | succ n ih => rw [List.replicate_succ, lays, ih]; rfl

theorem end_replicate {p : Nat × Nat} (hp : 0 < p.2) (hd : p.2 ∣ p.1) (n : Nat) {pos : Nat} (h : p.2 ∣ pos) :
    endFrom pos (List.replicate n p) = pos + n * p.1 := by
  induction n generalizing pos with
  | zero => simp [endFrom]
  | succ n ih =>
    rw [List.replicate_succ, endFrom, roundUp_dvd hp h, ih (Nat.dvd_add h hd), Nat.succ_mul]
    omega

theorem max_replicate {p : Nat × Nat} (hp : 0 < p.2) {n : Nat} (hn : n ≠ 0) : maxAlign (List.replicate n p) = p.2 := by
  obtain ⟨n, rfl⟩ := Nat.exists_eq_succ_of_ne_zero hn
  clear hn
  induction n with
  | zero => show max p.2 1 = p.2; omega
  | succ n ih => rw [List.replicate_succ, maxAlign, ih, Nat.max_self]

theorem scalars_replicate (A : Abi) (s : Shape) (n : Nat) {pos : Nat} (h : (s.lay A).2 ∣ pos) (a : Nat) :
    scalarsAll A (List.replicate n s) (offsetsFrom pos (List.replicate n (s.lay A))) a =
      (List.range n).flatMap fun i => s.scalars A (a + (pos + i * (s.lay A).1)) := by
  obtain ⟨hp, hd⟩ := Shape.lay_good A s
  induction n generalizing pos with
  | zero => rfl
  | succ n ih =>
    rw [List.replicate_succ, List.replicate_succ, offsetsFrom, scalarsAll, roundUp_dvd hp h, ih (Nat.dvd_add h hd), List.range_succ_eq_map,
      List.flatMap_cons, List.flatMap_map, Nat.zero_mul, Nat.add_zero]
    refine congrArg (_ ++ ·) (congrArg (List.flatMap · _) (funext fun i => ?_))
    rw [Nat.succ_mul]
    congr 1; omega

/-- A struct with one member per item. -/
theorem same_items {A : Abi} {s s' : Shape} (h : SameAbi A s s') {n : Nat} (hn : n ≠ 0) : SameAbi A (.array n s) (.struct (List.replicate n s')) := by
  obtain ⟨hp, hd⟩ := Shape.lay_good A s'
  refine ⟨?_, fun a => ?_⟩
  · rw [Shape.lay, Shape.lay, lays_replicate, structLay, max_replicate hp hn, end_replicate hp hd _ (Nat.dvd_zero _), h.1, Nat.zero_add,
      roundUp_dvd hp (Nat.dvd_trans hd (Nat.dvd_mul_left _ _))]
  · rw [Shape.scalars, Shape.scalars, lays_replicate, scalars_replicate A s' n (Nat.dvd_zero _), h.1]
    refine congrArg (List.flatMap · _) (funext fun i => ?_)
    rw [h.2, Nat.zero_add]

/-! ### One shape -/

mutual
theorem Native.unique {A : Abi} {ds : List Decl} {as : List Attr} {t : Ty} {s s' : Shape} (h : Native A ds as t s) (h' : Native A ds as t s') : s = s' := by
  match h with
  | .number e1 e2 =>
    cases h' with
    | number _ f2 => rw [e2] at f2; cases f2; rfl
    | bool4 _ => cases e2
    | delegate f1 _ => rw [e1] at f1; cases f1
    | enum f1 _ => rw [e1] at f1; cases f1
    | struct f1 _ _ => rw [e1] at f1; cases f1
  | .bool1 e1 =>
    cases h' with
    | bool1 _ => rfl
    | delegate f1 _ => rw [e1] at f1; cases f1
  | .bool4 e1 =>
    cases h' with
    | number _ f2 => cases f2
    | bool4 _ => rfl
    | delegate f1 _ => rw [e1] at f1; cases f1
    | enum f1 _ => rw [e1] at f1; cases f1
    | struct f1 _ _ => rw [e1] at f1; cases f1
  | .ptr => cases h'; rfl
  | .delegate e1 _ =>
    cases h' with
    | number f1 _ => rw [e1] at f1; cases f1
    | bool1 f1 => rw [e1] at f1; cases f1
    | bool4 f1 => rw [e1] at f1; cases f1
    | delegate _ _ => rfl
    | enum f1 _ => rw [e1] at f1; cases f1
    | struct f1 _ _ => rw [e1] at f1; cases f1
  | .enum e1 e2 =>
    cases h' with
    | number f1 _ => rw [e1] at f1; cases f1
    | bool4 f1 => rw [e1] at f1; cases f1
    | delegate f1 _ => rw [e1] at f1; cases f1
    | enum f1 f2 => rw [e1] at f1; cases f1; rw [e2] at f2; cases f2; rfl
    | struct f1 _ _ => rw [e1] at f1; cases f1
  | .struct e1 h1 _ =>
    cases h' with
    | number f1 _ => rw [e1] at f1; cases f1
    | bool4 f1 => rw [e1] at f1; cases f1
    | delegate f1 _ => rw [e1] at f1; cases f1
    | enum f1 _ => rw [e1] at f1; cases f1
    | struct f1 h2 _ =>
      rw [e1] at f1
      injection f1 with f1
      injection f1 with _ _ _ f1
      subst f1
      rw [h1.unique h2]
theorem Natives.unique {A : Abi} {ds : List Decl} {ms : List Member} {s s' : List Shape} (h : Natives A ds ms s) (h' : Natives A ds ms s') : s = s' := by
  match h with
  | .nil => cases h'; rfl
  | .field h hs => cases h' with | field h' hs' => rw [h.unique h', hs.unique hs']
  | .fixed (mods := mods) (ty := ty) (n := n) (k := k) (ms := ms) h hs =>
    generalize hm : Member.fixed mods ty n (nat k) :: ms = l at h'
    cases h' with
    | nil => cases hm
    | field _ _ => cases hm
    | fixed h' hs' =>
      injection hm with e1 e2
      injection e1 with _ e3 _ e4
      subst e2 e3
      rw [nat_inj e4, h.unique h', hs.unique hs']
end

/-! ### Both -/

/-- What a header declares. -/
structure Finds (P : Prog) (es : List Export) (ds : List Decl) : Prop where
  builtin : ∀ n ∈ builtin, find ds n = none
  items : ∀ t, Reach P es t → isItem t = true → ∀ d ∈ typeDecls P t, find ds (csName P.base t) = some d
  aligned : ∀ i g docs size fs, Reach P es (.adt i g) → P.decl i g = .struct docs size fs → ∀ f ∈ fs, f.size = 0 → f.align ≤ 1

theorem numbers_int (A : Abi) (b : Nat → Text) (k : IntTy) : (numbers A).lookup (csName b (.int k)) = some (intScalar A k) := by cases k <;> rfl
theorem builtin_int (b : Nat → Text) (k : IntTy) : csName b (.int k) ∈ builtin := (by cases k <;> decide : k.cs ∈ builtin)

section
variable {A : Abi} {P : Prog} {es : List Export} {ds : List Decl}

/-- Without attributes, and with those that the header has. -/
structure Seen (A : Abi) (P : Prog) (ds : List Decl) (t : CTy) (s s' : Shape) : Prop where
  attr : Native A ds (attrs t) (ty P.base t) s'
  none : t ≠ .bool → Native A ds [] (ty P.base t) s'
  same : SameAbi A s.bytes s'

theorem Seen.plain {t : CTy} {s s' : Shape} (ha : attrs t = []) (h : Native A ds [] (ty P.base t) s') (hs : SameAbi A s.bytes s') : Seen A P ds t s s' :=
  ⟨by rw [ha]; exact h, fun _ => h, hs⟩

theorem natives_items {b : Nat → Text} {item : CTy} {s : Shape} (h : Native A ds (attrs item) (ty b item) s) (l : List Nat) :
    Natives A ds (l.map fun i => .field [kPublic] (var b (t!"_" ++ nat i) item)) (List.replicate l.length s) := by
  induction l with
  | nil => exact .nil
  | cons i l ih => exact .field h ih

mutual
theorem seen (hd : Finds P es ds) (hz : Sized A P es) (hm : Marshals P es) {t : CTy} {s : Shape} (h : RShape A P t s) (hr : Reach P es t)
    (h0 : (s.lay A).1 ≠ 0) : ∃ s', Seen A P ds t s s' := by
  match h with
  | .int k =>
    refine ⟨_, .plain rfl (.number (hd.builtin _ (builtin_int P.base k)) (numbers_int A P.base k)) ?_⟩
    cases k <;> exact .refl ..
  | .float => exact ⟨_, .plain rfl (.number (hd.builtin t!"float" (by decide)) rfl) (.refl ..)⟩
  | .double => exact ⟨_, .plain rfl (.number (hd.builtin t!"double" (by decide)) rfl) (.refl ..)⟩
  | .bool => exact ⟨_, .bool1 (hd.builtin _ (by decide)), fun h => absurd rfl h, .refl ..⟩
  | .cint => exact absurd rfl (hm _ hr).1
  | .cchar => exact ⟨_, .plain rfl (.number (hd.builtin t!"byte" (by decide)) rfl) (.refl ..)⟩
  | .fptr (ret := ret) (args := args) =>
    have hf := hd.items _ hr rfl _ (List.mem_singleton.2 rfl)
    exact ⟨_, .delegate hf (.inr rfl), fun _ => .delegate hf (.inl rfl), .refl ..⟩
  | .constPtr => exact ⟨_, .plain rfl .ptr (.refl ..)⟩
  | .mutPtr => exact ⟨_, .plain rfl .ptr (.refl ..)⟩
  | .void => simp [Shape.lay, lays, structLay, endFrom, maxAlign, roundUp] at h0
  | .array (n := n) (t := item) (s := s) h' =>
    have hf := hd.items _ hr rfl _ (List.mem_singleton.2 rfl)
    have hsize := hz.arrays _ _ _ hr (.array h')
    have hn : n ≠ 0 := by rintro rfl; rw [Shape.lay, Nat.zero_mul] at h0; exact h0 rfl
    obtain ⟨s', h1⟩ := seen hd hz hm h' hr.item (by rw [Shape.lay] at h0; intro e; rw [e] at h0; exact h0 rfl)
    rw [arrayMembers] at hf
    cases hfix : isFixed item with
    | true =>
      have ha : attrs item = [] := by cases item <;> first | (cases hfix; done) | rfl
      have h2 := h1.attr
      rw [ha] at h2
      have hs : SameAbi A (Shape.array n s).bytes (.struct [.array n s']) := (h1.same.array n).wrap
      rw [hfix, if_pos rfl] at hf
      refine ⟨_, .plain rfl (.struct hf (.fixed h2 .nil) ?_) hs⟩
      rw [hsize, ← hs.1, bytes_lay]
      exact Nat.le_refl _
    | false =>
      have hs : SameAbi A (Shape.array n s).bytes (.struct (List.replicate n s')) := same_items h1.same hn
      rw [hfix, if_neg (by decide)] at hf
      have hns := natives_items (b := P.base) h1.attr (List.range n)
      rw [List.length_range] at hns
      refine ⟨_, .plain rfl (.struct hf hns ?_) hs⟩
      rw [hsize, ← hs.1, bytes_lay]
      exact Nat.le_refl _
  | .alias (t := t) h =>
    obtain ⟨s', h1⟩ := seen hd hz hm h hr.inner h0
    exact ⟨s', .plain rfl (h1.none (by rintro rfl; exact (hm _ hr).2 _ _ rfl)) h1.same⟩
  | .enum (int := int) e =>
    have hf := hd.items _ hr rfl _ (List.mem_singleton.2 rfl)
    rw [e] at hf
    cases int with
    | none => exact ⟨_, .plain rfl (.enum hf rfl) (.refl ..)⟩
    | some k =>
      refine ⟨_, .plain rfl (.enum hf (numbers_int A P.base k)) ?_⟩
      cases k <;> exact .refl ..
  | .struct (ss := ss) e h' =>
    have hf := hd.items _ hr rfl _ (List.mem_singleton.2 rfl)
    have hsize := hz.structs _ _ _ _ _ _ hr e (.struct e h')
    rw [e] at hf
    obtain ⟨ss', h3, h4⟩ := seenAll hd hz hm h' (fun f hf => hr.field e hf) (hd.aligned _ _ _ _ _ hr e)
    have hs : SameAbi A (Shape.struct ss).bytes (.struct ss') := h4.struct
    refine ⟨_, .plain rfl (.struct hf h3 ?_) hs⟩
    rw [hsize, ← hs.1, bytes_lay]
    exact Nat.le_refl _
theorem seenAll (hd : Finds P es ds) (hz : Sized A P es) (hm : Marshals P es) {fs : List Field} {ss : List Shape} (h : RShapes A P fs ss)
    (hr : ∀ f ∈ fs, Reach P es f.ty) (ha : ∀ f ∈ fs, f.size = 0 → f.align ≤ 1) :
    ∃ ss', Natives A ds (fieldMembers P.base fs) ss' ∧ Drops A (fs.map (·.name)) (bytesAll ss) ((kept fs).map (·.name)) ss' := by
  match h with
  | .nil => exact ⟨[], .nil, .nil⟩
  | .cons (f := f) (s := s) (fs := fs) h hl hs =>
    obtain ⟨ss', h1, h2⟩ := seenAll hd hz hm hs (fun f hf => hr f (by simp [hf])) (fun f hf => ha f (by simp [hf]))
    rw [bytesAll, fieldMembers]
    by_cases h0 : f.size = 0
    · have e : kept (f :: fs) = kept fs := by simp [kept, h0]
      have ha := ha f (by simp) h0
      have hp := (Shape.lay_good A s).1
      rw [← hl] at hp
      dsimp only at hp
      rw [e]
      refine ⟨ss', h1, .drop ?_ ?_ h2⟩
      · rw [bytes_lay, ← hl, h0]; congr; omega
      · intro a; rw [bytes_scalars, RShape.empty h (by rw [← hl]; exact h0)]; rfl
    · have e : kept (f :: fs) = f :: kept fs := by simp [kept, h0]
      have h0' : (s.lay A).1 ≠ 0 := by rw [← hl]; exact h0
      obtain ⟨s', h3⟩ := seen hd hz hm h (hr f (by simp)) h0'
      rw [e]
      exact ⟨s' :: ss', .field h3.attr h1, .keep (by rw [bytes_lay]; exact h0') h3.same h2⟩
end

end

end Verif.Headers.Cs
