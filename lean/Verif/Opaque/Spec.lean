import Verif.Opaque.Model
/-!
# Opaque types: what "by value" means
-/
namespace Verif.Opaque

open Verif.Layout

/-- A value of the type contains, itself and not behind a pointer, a value of an opaque type. (The other fields of a
`repr(transparent)` struct have no data.) -/
inductive Holds : Ty → Prop
  | here (s a) : Holds (.opaque s a)
  | array {t} (n) : Holds t → Holds (.array t n)
  | struct {fs f} (n) : f ∈ fs → Holds f → Holds (.struct n fs)
  | transparent {t} (ts) : Holds t → Holds (.transparent (t :: ts))
  | option {t} : Holds t → Holds (.option t)
  | tagged {t} : Holds t → Holds (.tagged t)

/-- … and one of those is in an array. -/
inductive HoldsArray : Ty → Prop
  | here {t} (n) : Holds t → HoldsArray (.array t n)
  | array {t} (n) : HoldsArray t → HoldsArray (.array t n)
  | struct {fs f} (n) : f ∈ fs → HoldsArray f → HoldsArray (.struct n fs)
  | transparent {t} (ts) : HoldsArray t → HoldsArray (.transparent (t :: ts))
  | option {t} : HoldsArray t → HoldsArray (.option t)
  | tagged {t} : HoldsArray t → HoldsArray (.tagged t)

/-- The first field of every `repr(transparent)` struct in the type has its data. -/
inductive DataFirst (tg : Target) : Ty → Prop
  | int (k) : DataFirst tg (.int k)
  | float (k) : DataFirst tg (.float k)
  | bool : DataFirst tg .bool
  | enum (k vs) : DataFirst tg (.enum k vs)
  | rawPtr : DataFirst tg .rawPtr
  | ref (k t) : DataFirst tg (.ref k t)
  | out (t) : DataFirst tg (.out t)
  | fnPtr : DataFirst tg .fnPtr
  | unit : DataFirst tg .unit
  | opaque (s a) : DataFirst tg (.opaque s a)
  | array {t} (n) : DataFirst tg t → DataFirst tg (.array t n)
  | struct {fs} (n) : (∀ f ∈ fs, DataFirst tg f) → DataFirst tg (.struct n fs)
  | transparent {t ts} : lay tg (.transparent (t :: ts)) = lay tg t → DataFirst tg t → DataFirst tg (.transparent (t :: ts))
  | option {t} : DataFirst tg t → DataFirst tg (.option t)
  | tagged {t} : DataFirst tg t → DataFirst tg (.tagged t)

/-- All bits zero are no value of the type, so that C's `NULL` can be `None`: references, boxes, slices, vectors, `Out`,
functions, and `repr(transparent)` structs around these. -/
inductive NeverNull : Ty → Prop
  | ref (k t) : NeverNull (.ref k t)
  | out (t) : NeverNull (.out t)
  | fnPtr : NeverNull .fnPtr
  | slice (fs) : NeverNull (.struct true fs)
  | transparent {t} (ts) : NeverNull t → NeverNull (.transparent (t :: ts))

/-- The types that the guide says can be used, opaque ones behind pointers: `lengths` are those of the arrays that are supported. -/
inductive Usable (lengths : List Nat) : Ty → Prop
  | int (k) : Usable lengths (.int k)
  | float (k) : Usable lengths (.float k)
  | bool : Usable lengths .bool
  | enum (k vs) : Usable lengths (.enum k vs)
  | rawPtr : Usable lengths .rawPtr
  | fnPtr : Usable lengths .fnPtr
  | unit : Usable lengths .unit
  | ref {t} (k) : Usable lengths t → Usable lengths (.ref k t)
  | refOpaque (k s a) : Usable lengths (.ref k (.opaque s a))
  | out {t} : Usable lengths t → Usable lengths (.out t)
  | outOpaque (s a) : Usable lengths (.out (.opaque s a))
  | array {t n} : n ∈ lengths → Usable lengths t → Usable lengths (.array t n)
  | struct {fs} (n) : (∀ f ∈ fs, Usable lengths f) → Usable lengths (.struct n fs)
  | transparent {t} (ts) : Usable lengths t → Usable lengths (.transparent (t :: ts))
  | option {t} : NeverNull t → Usable lengths t → Usable lengths (.option t)
  | tagged {t} : Usable lengths t → Usable lengths (.tagged t)

/-- The lengths of arrays that are supported: up to 32, and these. -/
def supported : List Nat :=
  List.range' 1 32 ++ [40, 48, 50, 60, 64, 70, 75, 80, 90, 96, 100, 125, 128, 192, 200, 250, 256, 300, 400, 500, 512, 600, 700,
    750, 800, 900, 1000, 1024]

/-- The type occurs in another, also behind pointers. (The other fields of a `repr(transparent)` struct have no data.) -/
inductive Part (u : Ty) : Ty → Prop
  | self : Part u u
  | ref {t} (k) : Part u t → Part u (.ref k t)
  | out {t} : Part u t → Part u (.out t)
  | array {t} (n) : Part u t → Part u (.array t n)
  | struct {fs f} (n) : f ∈ fs → Part u f → Part u (.struct n fs)
  | transparent {t} (ts) : Part u t → Part u (.transparent (t :: ts))
  | option {t} : Part u t → Part u (.option t)
  | tagged {t} : Part u t → Part u (.tagged t)

end Verif.Opaque
