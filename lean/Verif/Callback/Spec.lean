import Verif.Callback.Model
/-!
# What the lifetimes of a signature mean

`R` are the lifetimes themselves. An elided lifetime of a signature stands for any lifetime, and so does one that the
`for<…>` of the function pointer declares; the lifetime parameters of the newtype are fixed.
-/
namespace Verif.Callback

/-- A lifetime in a type: a lifetime, or one bound by a `for<…>` inside of the type. -/
inductive Rg (R : Type)
  | free (r : R)
  | bound (s : String)

/-- The types of Rust, with lifetimes in place of their names. -/
inductive RTy (R : Type)
  | path (name : String) (lts : List (Rg R)) (args : List (RTy R))
  | ref (lt : Rg R) (mutable : Bool) (ty : RTy R)
  | ptr (mutable : Bool) (ty : RTy R)
  | tuple (tys : List (RTy R))
  | dyn (traits : List (RTy R)) (lts : List (Rg R))
  | fn (binder : List String) (params : List (RTy R)) (ret : RTy R)

variable {R : Type}

/-! ### Types as written in a signature -/

/-- The lifetime may be `g`; `inner` are the names bound inside of the type, `σ` the meaning of the others. -/
def Lt.Inst (inner : List String) (σ : String → R) : Lt → Rg R → Prop
  | .elided, g => ∃ r, g = .free r
  | .name s, g => g = if s ∈ inner then .bound s else .free (σ s)

/-- The same for several lifetimes. -/
def Lt.Insts (inner : List String) (σ : String → R) : List Lt → List (Rg R) → Prop
  | [], [] => True
  | l :: ls, g :: gs => l.Inst inner σ g ∧ Lt.Insts inner σ ls gs
  | _, _ => False

mutual
/-- The type as written may be `U`: each elided lifetime is any lifetime. -/
def Ty.Inst (inner : List String) (σ : String → R) : Ty → RTy R → Prop
  | .path n lts args, .path n' gs us => n = n' ∧ Lt.Insts inner σ lts gs ∧ Ty.Insts inner σ args us
  | .ref (some l) m ty, .ref g m' u => m = m' ∧ l.Inst inner σ g ∧ ty.Inst inner σ u
  | .ref none m ty, .ref g m' u => m = m' ∧ (∃ r, g = .free r) ∧ ty.Inst inner σ u
  | .ptr m ty, .ptr m' u => m = m' ∧ ty.Inst inner σ u
  | .tuple tys, .tuple us => Ty.Insts inner σ tys us
  | .dyn ts lts, .dyn us gs => Ty.Insts inner σ ts us ∧ Lt.Insts inner σ lts gs
  | .fn b ps r, .fn b' us u => b = b' ∧ Ty.Insts (b ++ inner) σ ps us ∧ r.Inst (b ++ inner) σ u
  | _, _ => False
/-- The same for several types. -/
def Ty.Insts (inner : List String) (σ : String → R) : List Ty → List (RTy R) → Prop
  | [], [] => True
  | t :: ts, u :: us => t.Inst inner σ u ∧ Ty.Insts inner σ ts us
  | _, _ => False
end

/-! ### Types in a where clause -/

/-- In a where clause, and in an associated type, lifetimes cannot be elided. -/
def Lt.eval (inner : List String) (σ : String → R) : Lt → Option (Rg R)
  | .elided => none
  | .name s => some (if s ∈ inner then .bound s else .free (σ s))

/-- The same for several lifetimes. -/
def Lt.evals (inner : List String) (σ : String → R) : List Lt → Option (List (Rg R))
  | [] => some []
  | l :: ls => do return (← l.eval inner σ) :: (← Lt.evals inner σ ls)

/-- Lifetimes can be declared once, and `'static` cannot be declared. -/
def binderOk (b : List String) : Bool := decide b.Nodup && !b.contains "static"

mutual
/-- The meaning of a type; `none` if the compiler rejects it. -/
def Ty.eval (inner : List String) (σ : String → R) : Ty → Option (RTy R)
  | .path n lts args => do return .path n (← Lt.evals inner σ lts) (← Ty.evals inner σ args)
  | .ref (some l) m ty => do return .ref (← l.eval inner σ) m (← ty.eval inner σ)
  | .ref none _ _ => none
  | .ptr m ty => do return .ptr m (← ty.eval inner σ)
  | .tuple tys => do return .tuple (← Ty.evals inner σ tys)
  | .dyn ts lts => do return .dyn (← Ty.evals inner σ ts) (← Lt.evals inner σ lts)
  | .fn b ps r => if binderOk b then do return .fn b (← Ty.evals (b ++ inner) σ ps) (← r.eval (b ++ inner) σ) else none
/-- The same for several types. -/
def Ty.evals (inner : List String) (σ : String → R) : List Ty → Option (List (RTy R))
  | [] => some []
  | t :: ts => do return (← t.eval inner σ) :: (← Ty.evals inner σ ts)
end

/-- `for<binder> ty : ReprC`, the lifetimes in scope being `ρ` (those called `scope` cannot be declared again): the
compiler accepts it, and it holds of all lifetimes `binder`. `P` are the types that are `ReprC`. -/
def Clause.Holds (P : RTy R → Prop) (scope : List String) (ρ : String → R) (c : Clause) : Prop :=
  binderOk c.binder = true ∧ (∀ s ∈ c.binder, s ∉ scope) ∧
  ∀ σ : String → R, (∀ s, s ∉ c.binder → σ s = ρ s) → ∃ U, c.ty.eval [] σ = some U ∧ P U

/-! ### Well-formed signatures -/

mutual
/-- The lifetimes named in a type, also in `for<…>`. -/
def Ty.names : Ty → List Lt
  | .path _ lts args => lts ++ Ty.namesOf args
  | .ref l _ ty => l.toList ++ ty.names
  | .ptr _ ty => ty.names
  | .tuple tys => Ty.namesOf tys
  | .dyn ts lts => Ty.namesOf ts ++ lts
  | .fn b ps r => b.map .name ++ Ty.namesOf ps ++ r.names
/-- The same for several types. -/
def Ty.namesOf : List Ty → List Lt
  | [] => []
  | t :: ts => t.names ++ Ty.namesOf ts
end

mutual
/-- No lifetime of the type is elided. -/
def Ty.explicit : Ty → Bool
  | .path _ lts args => lts.all (· != .elided) && Ty.explicits args
  | .ref l _ ty => (match l with | some (.name _) => true | _ => false) && ty.explicit
  | .ptr _ ty => ty.explicit
  | .tuple tys => Ty.explicits tys
  | .dyn ts lts => Ty.explicits ts && lts.all (· != .elided)
  | .fn _ ps r => Ty.explicits ps && r.explicit
/-- The same for several types. -/
def Ty.explicits : List Ty → Bool
  | [] => true
  | t :: ts => t.explicit && Ty.explicits ts
end

mutual
/-- The function pointers inside of the type are well-formed, and elide no lifetime. -/
def Ty.fnsOk : Ty → Bool
  | .path _ _ args => Ty.allFnsOk args
  | .ref _ _ ty => ty.fnsOk
  | .ptr _ ty => ty.fnsOk
  | .tuple tys => Ty.allFnsOk tys
  | .dyn ts _ => Ty.allFnsOk ts
  | .fn b ps r => binderOk b && Ty.explicits ps && r.explicit && Ty.allFnsOk ps && r.fnsOk
/-- The same for several types. -/
def Ty.allFnsOk : List Ty → Bool
  | [] => true
  | t :: ts => t.fnsOk && Ty.allFnsOk ts
end

/-- A name that the macro may generate. -/
def Generated (s : String) : Prop := ∃ n : Nat, s = "__elided_" ++ toString n

/-- The compiler accepts the newtype itself, and no lifetime has a name reserved by the macro. -/
structure Newtype.Ok (d : Newtype) : Prop where
  binder : binderOk d.binder = true
  shadow : ∀ s ∈ d.binder, s ∉ d.generics
  generics : ∀ s ∈ d.generics, ¬ Generated s
  declared : ∀ s ∈ d.binder, ¬ Generated s
  used : ∀ ty ∈ d.types, ∀ s, Lt.name s ∈ ty.names → ¬ Generated s

end Verif.Callback
