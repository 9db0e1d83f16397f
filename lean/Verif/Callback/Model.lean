/-!
# Lifetimes of callback newtypes

Model of the part of `try_handle_fptr` (src/proc_macro/derives/handle_fptr.rs) that handles the lifetimes of the
signature of a `#[derive_ReprC] #[repr(transparent)] pub struct Cb<…>(pub extern "C" fn(…) -> …);`: the where
clauses and the C layout that it generates. Which definitions it accepts is in `Verif.Derive`.
-/
namespace Verif.Callback

/-- `syn::Lifetime`: `'_`, or a name (without the quote). -/
inductive Lt
  | elided
  | name (s : String)
  deriving DecidableEq, Repr

/-- `syn::Type`. Simplifications: paths have one segment with arguments, lifetimes first; arrays and slices are
paths; trait objects have no `for<…>` of their own, `Fn(…)` sugar and macros are left out. -/
inductive Ty
  | path (name : String) (lts : List Lt) (args : List Ty)
  | ref (lt : Option Lt) (mutable : Bool) (ty : Ty)
  | ptr (mutable : Bool) (ty : Ty)
  | tuple (tys : List Ty)
  | dyn (traits : List Ty) (lts : List Lt)
  /-- `for<binder> fn(params) -> ret`; no `->` is `-> ()`. -/
  | fn (binder : List String) (params : List Ty) (ret : Ty)

/-- A callback newtype: its lifetime parameters, the `for<…>` of its function pointer, the types of the
parameters and of the result, `none` if there is none (`ReturnType::Default`). The fields of `DeriveInput`,
src/proc_macro/derives/handle_fptr.rs 23-43, 63-67. -/
structure Newtype where
  generics : List String
  binder : List String
  params : List Ty
  ret : Option Ty

/-- `ELIDED_LIFETIME_TEMPLATE`: src/proc_macro/derives/handle_fptr.rs 359-361, 369-372, 390-397. -/
def elidedName (n : Nat) : String := "__elided_" ++ toString n

/-- `UnelideLifetimes`: `lifetime_params` and `counter`, src/proc_macro/derives/handle_fptr.rs 353-356. -/
structure St where
  lifetimes : List String
  counter : Nat

/-- (language) A new lifetime: `counter.next()` and `push`, src/proc_macro/derives/handle_fptr.rs 369-373, 387-402. -/
def St.fresh (s : St) : Lt × St :=
  (.name (elidedName s.counter), { lifetimes := s.lifetimes ++ [elidedName s.counter], counter := s.counter + 1 })

/-- `visit_lifetime_mut`, src/proc_macro/derives/handle_fptr.rs 363-375. -/
def visitLt : Lt → St → Lt × St
  | .elided, s => s.fresh
  | .name n, s => (.name n, s)

/-- Each lifetime in turn. (syn) -/
def visitLts : List Lt → St → List Lt × St
  | [], s => ([], s)
  | l :: ls, s => let (l, s) := visitLt l s; let (ls, s) := visitLts ls s; (l :: ls, s)

mutual
/-- `visit_type_mut`, src/proc_macro/derives/handle_fptr.rs 377-405: the parts of the type first, in the order of
syn (`visit_mut::visit_type_mut`), then the type itself if it is a reference without a lifetime. The names in the
`for<…>` of a function pointer are visited too, but are never `'_`. -/
def visit : Ty → St → Ty × St
  | .path n lts args, s => let (lts, s) := visitLts lts s; let (args, s) := visits args s; (.path n lts args, s)
  | .ref (some l) m ty, s => let (l, s) := visitLt l s; let (ty, s) := visit ty s; (.ref (some l) m ty, s)
  | .ref none m ty, s => let (ty, s) := visit ty s; let (l, s) := s.fresh; (.ref (some l) m ty, s)
  | .ptr m ty, s => let (ty, s) := visit ty s; (.ptr m ty, s)
  | .tuple tys, s => let (tys, s) := visits tys s; (.tuple tys, s)
  | .dyn ts lts, s => let (ts, s) := visits ts s; let (lts, s) := visitLts lts s; (.dyn ts lts, s)
  | .fn b ps r, s => let (ps, s) := visits ps s; let (r, s) := visit r s; (.fn b ps r, s)
/-- Each type in turn. (syn) -/
def visits : List Ty → St → List Ty × St
  | [], s => ([], s)
  | t :: ts, s => let (t, s) := visit t s; let (ts, s) := visits ts s; (t :: ts, s)
end

/-- `for<binder> ty : ReprC`. -/
structure Clause where
  binder : List String
  ty : Ty

/-- The types of the parameters and of the result, src/proc_macro/derives/handle_fptr.rs 197-204. -/
def Newtype.types (d : Newtype) : List Ty := d.params ++ d.ret.toList

/-- One clause: src/proc_macro/derives/handle_fptr.rs 205-214. -/
def clause (binder : List String) (ty : Ty) : Clause :=
  let r := visit ty { lifetimes := binder, counter := 0 }
  { binder := r.2.lifetimes, ty := r.1 }

/-- `repr_c_clauses`, src/proc_macro/derives/handle_fptr.rs 184-236. -/
def Newtype.clauses (d : Newtype) : List Clause := d.types.map (clause d.binder)

/-- `visit_lifetime_mut` of `StripLifetimeParams`, src/proc_macro/derives/handle_fptr.rs 419-426. -/
def stripLt (_ : Lt) : Lt := .name "static"

mutual
/-- `visit_type_mut` of `StripLifetimeParams`, src/proc_macro/derives/handle_fptr.rs 428-445; the names in the
`for<…>` of a function pointer are lifetimes too (syn). -/
def strip : Ty → Ty
  | .path n lts args => .path n (lts.map stripLt) (strips args)
  | .ref _ m ty => .ref (some (.name "static")) m (strip ty)
  | .ptr m ty => .ptr m (strip ty)
  | .tuple tys => .tuple (strips tys)
  | .dyn ts lts => .dyn (strips ts) (lts.map stripLt)
  | .fn b ps r => .fn (b.map fun _ => "static") (strips ps) (strip r)
/-- Each type in turn. (syn) -/
def strips : List Ty → List Ty
  | [] => []
  | t :: ts => strip t :: strips ts
end

/-- `CLayout`: `Option<unsafe extern "C" fn(CLayoutOf<…>, …) -> CLayoutOf<…>>`; the types of which the C layouts
are taken. src/proc_macro/derives/handle_fptr.rs 149-173, 311-320. -/
structure Layout where
  params : List Ty
  ret : Ty

/-- src/proc_macro/derives/handle_fptr.rs 149-173. -/
def Newtype.layout (d : Newtype) : Layout :=
  { params := d.params.map strip
    ret := match d.ret with
      | none => .tuple []
      | some ty => strip ty }

end Verif.Callback
