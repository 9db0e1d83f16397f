import Verif.Headers.MarshalSpec
import Verif.Headers.FnProps
import Verif.Headers.EnumLemmas
/-!
# C62: C# declarations pass what the Rust code expects
-/
namespace Verif.Headers
open Text

/-- Not a function pointer, below aliases and pointers. -/
def noDelegate : CTy → Bool
  | .fptr _ _ => false
  | .constPtr x => noDelegate x
  | .mutPtr x => noDelegate x
  | .alias _ _ inner => noDelegate inner
  | _ => true

/-- No pointer to a function pointer. -/
def ptrFine : CTy → Bool
  | .constPtr x => noDelegate x
  | .mutPtr x => noDelegate x
  | _ => true

def isBool : CTy → Bool
  | .bool => true
  | _ => false

def isCint : CTy → Bool
  | .cint => true
  | _ => false

/-- The types that C# passes rightly: not `c_int`, not an alias of `bool`, not a pointer to a function
pointer. -/
def csFine (ty : CTy) : Bool := !isCint ty && (!isAlias ty || !isBool (unalias ty)) && ptrFine (unalias ty)

/-! ### Lemmas -/

/-- The C# name without comments. -/
def csPlain (b : Nat → Text) : CTy → Text
  | .constPtr to => csPlain b to ++ t!"  *"
  | .mutPtr to => csPlain b to ++ t!" *"
  | .alias _ _ inner => csPlain b inner
  | ty => csName b ty

theorem slash_free {s : Text} (h : IsWord s) : '/' ∉ s := h.not_mem (by decide)

theorem int_cs_word (k : IntTy) : IsWord k.cs := by cases k <;> decide

theorem named_word (b : Nat → Text) {ty : CTy} (h : wordsOk b ty = true) : IsWord (short b ty ++ t!"_t") :=
  (short_word b ty h).append (by decide)

theorem code_csName (b : Nat → Text) (ty : CTy) (h : csWords b ty = true) (r : Text) :
    code .code (csName b ty ++ r) = csPlain b ty ++ code .code r := by
  match ty, h with
  | .int k, _ => exact code_plain (slash_free (int_cs_word k)) r
  | .float, _ => exact code_plain (s := t!"float") (by decide) r
  | .double, _ => exact code_plain (s := t!"double") (by decide) r
  | .bool, _ => exact code_plain (s := t!"bool") (by decide) r
  | .cint, _ => exact code_plain (s := t!"int") (by decide) r
  | .cchar, _ => exact code_plain (s := t!"byte") (by decide) r
  | .void, _ => exact code_plain (s := t!"void") (by decide) r
  | .array n item, h =>
    have e : csName b (.array n item) = short b (.array n item) ++ t!"_t" := by
      rw [csName, cVar_array]; simp [sep]
    rw [csPlain, e]
    · exact code_plain (slash_free (named_word b (ty := .array n item) h)) r
    all_goals nofun
  | .fptr ret args, h => exact code_plain (slash_free (short_word b (.fptr ret args) h)) r
  | .constPtr to, h =>
    have e : csName b (.constPtr to) ++ r = csName b to ++ (' ' :: '/' :: '*' :: 'c' :: 'o' :: 'n' :: 's' :: 't' :: '*' :: '/' :: ' ' :: '*' :: r) := by
      simp [csName]
    rw [e, code_csName b to h, csPlain]
    simp [code]
  | .mutPtr to, h =>
    have e : csName b (.mutPtr to) ++ r = csName b to ++ (' ' :: '*' :: r) := by simp [csName]
    rw [e, code_csName b to h, csPlain]
    simp [code]
  | .alias _ _ inner, h => exact code_csName b inner h r
  | .adt i generics, h => exact code_plain (slash_free (named_word b (ty := .adt i generics) h)) r

theorem code_csName' (b : Nat → Text) {ty : CTy} (h : csWords b ty = true) : code .code (csName b ty) = csPlain b ty := by
  have := code_csName b ty h []
  simpa [code] using this

theorem csPlain_unalias (b : Nat → Text) (ty : CTy) : csPlain b ty = csPlain b (unalias ty) := by
  match ty with
  | .alias _ _ inner => exact csPlain_unalias b inner
  | .int _ | .float | .double | .bool | .cint | .cchar | .void | .array _ _ | .fptr _ _ | .constPtr _ | .mutPtr _ | .adt _ _ => rfl

theorem native_unalias (W : Nat) (b : Nat → Text) (ty : CTy) : native W b ty = native W b (unalias ty) := by
  match ty with
  | .alias _ _ inner => exact native_unalias W b inner
  | .int _ | .float | .double | .bool | .cint | .cchar | .void | .array _ _ | .fptr _ _ | .constPtr _ | .mutPtr _ | .adt _ _ => rfl

theorem csWords_unalias (b : Nat → Text) (ty : CTy) : csWords b ty = csWords b (unalias ty) := by
  match ty with
  | .alias _ _ inner => exact csWords_unalias b inner
  | .int _ | .float | .double | .bool | .cint | .cchar | .void | .array _ _ | .fptr _ _ | .constPtr _ | .mutPtr _ | .adt _ _ => rfl

theorem unalias_idem (ty : CTy) : isAlias (unalias ty) = false := by
  match ty with
  | .alias _ _ inner => exact unalias_idem inner
  | .int _ | .float | .double | .bool | .cint | .cchar | .void | .array _ _ | .fptr _ _ | .constPtr _ | .mutPtr _ | .adt _ _ => rfl

theorem pointee_star (s w : Text) (h : ∀ c ∈ w, c = '*' ∨ isWs c = true) : pointee (s ++ w) = pointee s := by
  rw [pointee, pointee, List.reverse_append]
  congr 1
  have : ∀ l : Text, (∀ c ∈ l, c = '*' ∨ isWs c = true) →
      (l ++ s.reverse).dropWhile (fun c => c == '*' || isWs c) = s.reverse.dropWhile fun c => c == '*' || isWs c := by
    intro l hl
    induction l with
    | nil => rfl
    | cons c cs ih =>
      rw [List.cons_append, List.dropWhile_cons, if_pos (by simpa using hl c (by simp))]
      exact ih fun x hx => hl x (by simp [hx])
  exact this _ fun c hc => h c (List.mem_reverse.1 hc)

theorem pointee_word {s : Text} (h : IsWord s) : pointee s = s := by
  have hr : ∀ c ∈ s.reverse, (c == '*' || isWs c) = false := by
    intro c hc
    have hm := List.mem_reverse.1 hc
    have h2 := h.2 _ hm
    rw [h.visible _ hm, Bool.or_false, beq_eq_false_iff_ne]
    intro e
    rw [e] at h2
    revert h2; decide
  rw [pointee]
  cases hs : s.reverse with
  | nil => rw [List.reverse_eq_nil_iff.1 hs]; rfl
  | cons c cs =>
    rw [List.dropWhile_cons, if_neg (by rw [hr c (by rw [hs]; simp)]; decide), ← hs, List.reverse_reverse]

theorem delegate_t (x : Text) : isDelegate (x ++ t!"_t") = false := by
  rw [isDelegate, Bool.eq_false_iff]
  intro h
  obtain ⟨p, hp⟩ := List.isSuffixOf_iff_suffix.1 h
  have h1 := congrArg (fun l : Text => l.reverse[1]?) hp
  revert h1
  simp

theorem delegate_fptr (x : Text) : isDelegate (x ++ t!"_fptr") = true :=
  List.isSuffixOf_iff_suffix.2 ⟨x, rfl⟩

theorem pointee_csPlain (b : Nat → Text) (ty : CTy) (hn : csWords b ty = true) (hd : noDelegate ty = true) :
    isDelegate (pointee (csPlain b ty)) = false := by
  match ty, hn, hd with
  | .int k, _, _ => cases k <;> rfl
  | .float, _, _ => rfl
  | .double, _, _ => rfl
  | .bool, _, _ => rfl
  | .cint, _, _ => rfl
  | .cchar, _, _ => rfl
  | .void, _, _ => rfl
  | .array n item, h, _ =>
    have e : csPlain b (.array n item) = short b (.array n item) ++ t!"_t" := by
      show cVar b (.array n item) [] = _
      rw [cVar_array]; simp [sep]
    rw [e, pointee_word (named_word b (ty := .array n item) h)]
    exact delegate_t _
  | .constPtr to, hn, hd =>
    show isDelegate (pointee (csPlain b to ++ t!"  *")) = false
    rw [pointee_star _ _ (by decide)]
    exact pointee_csPlain b to hn hd
  | .mutPtr to, hn, hd =>
    show isDelegate (pointee (csPlain b to ++ t!" *")) = false
    rw [pointee_star _ _ (by decide)]
    exact pointee_csPlain b to hn hd
  | .alias _ _ inner, hn, hd => exact pointee_csPlain b inner hn hd
  | .adt i generics, h, _ =>
    show isDelegate (pointee (short b (.adt i generics) ++ t!"_t")) = false
    rw [pointee_word (named_word b (ty := .adt i generics) h)]
    exact delegate_t _

theorem last_t (x : Text) : (x ++ t!"_t").getLast? = some 't' := by rw [List.getLast?_append]; rfl

/-- Names that end in `_t` are structs or enums. -/
theorem unmanaged_named (W : Nat) (x : Text) : unmanaged W none (x ++ t!"_t") = some (.named (x ++ t!"_t")) := by
  have ne : ∀ l : Text, (l.reverse.take 2 ≠ ['t', '_']) → x ++ t!"_t" ≠ l := by
    intro l hl e
    apply hl
    rw [← e]
    simp
  rw [unmanaged, last_t, if_neg (by decide), if_neg (ne _ (by decide)), delegate_t]
  simp only [Bool.false_eq_true, if_false, ne_eq, not_true_eq_false]
  rw [blittable, if_neg (ne _ (by decide)), if_neg (ne _ (by decide)), if_neg (ne _ (by decide)), if_neg (ne _ (by decide)),
    if_neg (ne _ (by decide)), if_neg (ne _ (by decide)), if_neg (ne _ (by decide)), if_neg (ne _ (by decide)),
    if_neg (ne _ (by decide)), if_neg (ne _ (by decide)), if_neg (ne _ (by decide)), if_neg (ne _ (by decide)),
    if_neg (ne _ (by decide)), if_neg (ne _ (by decide))]

theorem unmanaged_ptr (W : Nat) {s w : Text} (hl : (s ++ w).getLast? = some '*') (hw : ∀ c ∈ w, c = '*' ∨ isWs c = true)
    (hd : isDelegate (pointee s) = false) : unmanaged W none (s ++ w) = some .ptr := by
  rw [unmanaged, if_pos hl, if_pos ⟨rfl, by rw [pointee_star s w hw, hd]; rfl⟩]

theorem unmanaged_fptr (W : Nat) {x : Text} {attr : Option Text}
    (ha : attr = none ∨ attr = some t!"[MarshalAs(UnmanagedType.FunctionPtr)]") : unmanaged W attr (x ++ t!"_fptr") = some .ptr := by
  have hl : (x ++ t!"_fptr").getLast? = some 'r' := by rw [List.getLast?_append]; rfl
  have hne : x ++ t!"_fptr" ≠ t!"bool" := by
    intro e
    rw [e] at hl
    revert hl; decide
  rw [unmanaged, hl, if_neg (by decide), if_neg hne, if_pos (delegate_fptr x), if_pos ha]

/-- Types that are not aliases. -/
theorem unmanaged_plain (W : Nat) (b : Nat → Text) {ty : CTy} (ha : isAlias ty = false) (hn : csWords b ty = true)
    (hp : ptrFine ty = true) {attr : Option Text}
    (hattr : attr = (csMarshaler ty).map marshalAs ∨ (attr = none ∧ isBool ty = false)) (hc : attr = none ∨ isCint ty = false) :
    unmanaged W attr (csPlain b ty) = some (native W b ty) := by
  have hnone : csMarshaler ty = none → attr = none := by
    intro h
    rcases hattr with h' | h'
    · rw [h', h]; rfl
    · exact h'.1
  match ty, ha with
  | .int k, _ => rw [hnone rfl]; cases k <;> rfl
  | .float, _ => rw [hnone rfl]; rfl
  | .double, _ => rw [hnone rfl]; rfl
  | .bool, _ =>
    rcases hattr with h' | h'
    · rw [h']; rfl
    · cases h'.2
  | .cint, _ =>
    rcases hc with h | h
    · rw [h]; rfl
    · cases h
  | .cchar, _ => rw [hnone rfl]; rfl
  | .void, _ => rw [hnone rfl]; rfl
  | .array n item, _ =>
    have e : csPlain b (.array n item) = short b (.array n item) ++ t!"_t" := by
      show cVar b (.array n item) [] = _
      rw [cVar_array]; simp [sep]
    rw [hnone rfl, e]
    exact unmanaged_named W _
  | .fptr ret args, _ =>
    have e : csPlain b (.fptr ret args) = (short b ret ++ shorts b args) ++ t!"_fptr" := rfl
    rw [e]
    refine unmanaged_fptr W ?_
    rcases hattr with h' | h'
    · exact .inr h'
    · exact .inl h'.1
  | .constPtr to, _ =>
    rw [hnone rfl]
    exact unmanaged_ptr W (s := csPlain b to) (w := t!"  *") (by rw [List.getLast?_append]; rfl) (by decide)
      (pointee_csPlain b to hn hp)
  | .mutPtr to, _ =>
    rw [hnone rfl]
    exact unmanaged_ptr W (s := csPlain b to) (w := t!" *") (by rw [List.getLast?_append]; rfl) (by decide)
      (pointee_csPlain b to hn hp)
  | .adt i generics, _ => rw [hnone rfl]; exact unmanaged_named W _

theorem unmanaged_fine (W : Nat) (b : Nat → Text) (ty : CTy) (hn : csWords b ty = true) (hf : csFine ty = true) :
    unmanaged W ((csMarshaler ty).map marshalAs) (code .code (csName b ty)) = some (native W b ty) := by
  rw [code_csName' b hn]
  simp only [csFine, Bool.and_eq_true, Bool.or_eq_true, Bool.not_eq_true'] at hf
  obtain ⟨⟨h1, h2⟩, h3⟩ := hf
  cases ha : isAlias ty with
  | false =>
    have e : unalias ty = ty := by cases ty <;> first | rfl | cases ha
    rw [e] at h3
    exact unmanaged_plain W b ha hn h3 (.inl rfl) (.inr h1)
  | true =>
    have hm : csMarshaler ty = none := by cases ty <;> first | rfl | cases ha
    rw [hm, csPlain_unalias, native_unalias]
    rw [csWords_unalias] at hn
    rw [ha] at h2
    exact unmanaged_plain W b (unalias_idem ty) hn h3 (.inr ⟨rfl, h2.resolve_left nofun⟩) (.inl rfl)

/-! ### C62 -/

/-- C62, parameters, in part: for every parameter that the emitted C# method declares, .NET passes to
native code what the Rust function expects. (Missing: the types for which it is
false, see below; that structs whose fields are delegates are managed types as well is not considered.) -/
theorem C62_params_partial (W : Nat) (b : Nat → Text) (docs : List Text) (fname : Text) (args : List Arg) (ret : CTy)
    (h : ∀ a ∈ args, csWords b a.ty = true ∧ IsWord a.name) (hf : ∀ a ∈ args, csFine a.ty = true) :
    ∃ before params read, flat (emitFunction b .csharp docs fname args ret) = before ++ fname ++ t!" (" ++ params ++ t!");\n}\n\n" ∧
      csParams params = some read ∧
      read.map (fun p => (p.2.2, unmanaged W p.1 (code .code p.2.1))) = args.map fun a => (a.name, some (native W b a.ty)) := by
  obtain ⟨params, h1, h2⟩ := C49_csharp b docs fname args ret h
  refine ⟨_, params, _, h1, h2, ?_⟩
  rw [List.map_map]
  apply List.map_congr_left
  intro a ha
  simp only [Function.comp]
  rw [unmanaged_fine W b a.ty (h a ha).1 (hf a ha)]

/-- The attribute of the returned value, from `[return: MarshalAs(…)]` to the form of a parameter. -/
def returnAttr (s : Text) : Option Text :=
  if s = [] then none else some (t!"[" ++ (s.drop 13).dropLast)

/-- C62, returned value, in part: the same for what the method returns. -/
theorem C62_return_partial (W : Nat) (b : Nat → Text) (docs : List Text) (fname : Text) (args : List Arg) (ret : CTy)
    (h : ∀ a ∈ args, csWords b a.ty = true ∧ IsWord a.name) (hn : csWords b ret = true) (hf : csFine ret = true) :
    ∃ attr after, flat (emitFunction b .csharp docs fname args ret) =
        t!"public unsafe partial class Ffi {\n" ++ flat (emitDocs .csharp 1 docs) ++ attr ++
          t!"    [DllImport(RustLib, ExactSpelling = true)] public static unsafe extern\n    " ++
          csName b ret ++ t!" " ++ fname ++ after ∧
      unmanaged W (returnAttr attr) (code .code (csName b ret)) = some (native W b ret) := by
  obtain ⟨params, h1, h2⟩ := C49_csharp b docs fname args ret h
  refine ⟨csReturn (csMarshaler ret), t!" (" ++ params ++ t!");\n}\n\n", ?_, ?_⟩
  · rw [h1]; simp
  · rw [← unmanaged_fine W b ret hn hf]
    congr 1
    rcases csMarshaler_cases ret with h | h | h | h <;> rw [h] <;> decide

/-- A header as one would write it by hand. -/
example : unmanaged 64 none t!"UIntPtr" = some (.int 64 false) ∧ unmanaged 64 (some t!"[MarshalAs(UnmanagedType.U1)]") t!"bool" = some (.int 8 false) ∧
    unmanaged 32 none t!"Foo_t  *" = some .ptr ∧ unmanaged 32 none t!"Foo_t" = some (.named t!"Foo_t") := by decide

/-- The hypotheses hold: a function with a `bool`, a callback, an alias of a pointer and a struct. -/
example : ∀ a ∈ [Arg.mk t!"x" .bool, ⟨t!"cb", .fptr .void [.int .u8]⟩, ⟨t!"s", .alias t!"str" [] (.constPtr .cchar)⟩, ⟨t!"p", .adt 0 []⟩],
    (csWords (fun _ => t!"Foo") a.ty = true ∧ IsWord a.name) ∧ csFine a.ty = true := by decide

/-! ### The code does not satisfy the property -/

/-- C62 fails for `c_int`: `int` cannot be marshaled as `SysInt`. -/
theorem C62_fails_c_int (W : Nat) (b : Nat → Text) :
    unmanaged W ((csMarshaler .cint).map marshalAs) (csName b .cint) = none := rfl

/-- C62 fails for an alias of `bool`: four bytes are passed where Rust reads one; for a field, the
offsets of the following ones change. -/
theorem C62_fails_alias_of_bool (W : Nat) (b : Nat → Text) (rename : Text) (docs : List Text) :
    unmanaged W ((csMarshaler (.alias rename docs .bool)).map marshalAs) (csName b (.alias rename docs .bool)) = some (.int 32 true) ∧
      native W b (.alias rename docs .bool) = .int 8 false := ⟨rfl, rfl⟩

/-- C62 fails for pointers to function pointers: C# has no pointers to delegates. -/
theorem C62_fails_ptr_to_fptr (W : Nat) (b : Nat → Text) (ret : CTy) (args : List CTy) :
    unmanaged W ((csMarshaler (.mutPtr (.fptr ret args))).map marshalAs) (csName b (.mutPtr (.fptr ret args))) = none := by
  have e : csName b (.mutPtr (.fptr ret args)) = ((short b ret ++ shorts b args) ++ t!"_fptr") ++ t!" *" := rfl
  have h : isDelegate (pointee (((short b ret ++ shorts b args) ++ t!"_fptr") ++ t!" *")) = true := by
    rw [pointee_star _ _ (by decide)]
    have : pointee ((short b ret ++ shorts b args) ++ t!"_fptr") = (short b ret ++ shorts b args) ++ t!"_fptr" := by
      rw [pointee, List.reverse_append]
      show (List.dropWhile _ ('r' :: _)).reverse = _
      rw [List.dropWhile_cons, if_neg (by decide)]
      simp
    rw [this]
    exact delegate_fptr _
  rw [e, unmanaged, if_pos (by rw [List.getLast?_append]; rfl), if_neg]
  rw [h]
  simp

end Verif.Headers
