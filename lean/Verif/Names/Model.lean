import Verif.Util.Text
/-!
# Model of the name computations of the header generator
-/
namespace Verif.Names
open Verif.Text

/-! ## `screaming_case` -/

/-- One character of `impl Display for screaming_case`, `src/utils/_mod.rs` lines 45-52. -/
def screamChar (first : Bool) (c : Char) : Text :=
  (if !first && isAsciiUpper c then ['_'] else []) ++ [toAsciiUpper c]

/-- `screaming_case(enum_name, variant_name)`, `src/utils/_mod.rs` lines 31-56: `first` is only true for the
first character of the concatenation. -/
def screamingCase (s0 s1 : Text) : Text :=
  match s0 ++ s1 with
  | [] => []
  | c :: cs => screamChar true c ++ cs.flatMap (screamChar false)

/-! ## `pascal_cased_lib_name` -/

/-- The loop, `src/headers/_mod.rs` lines 483-500. -/
def pascalLoop (underscore : Bool) : Text → Text
  | [] => []
  | c :: cs =>
      if underscore then toAsciiUpper c :: pascalLoop false cs
      else if c = '_' then pascalLoop true cs
      else c :: pascalLoop false cs

/-- `pascal_cased_lib_name`, `src/headers/_mod.rs` lines 479-502. -/
def pascalCasedLibName (lib : Text) : Text := pascalLoop true lib

/-- `lib_name`, `src/headers/_mod.rs` lines 467-477: the environment variables `CARGO_CRATE_NAME` and
`CARGO_PKG_NAME`, `none` being a panic. -/
def libName (crateName pkgName : Option Text) : Option Text :=
  match crateName with
  | some s => some s
  | none => pkgName.map (·.map fun c => if c = '-' then '_' else c)

/-! ## `append_unqualified_name` -/

/-- `char::is_alphanumeric`: `uni` tells which non-ASCII characters are letters or numbers. (core)
`src/_lib.rs` lines 646-648. -/
def isAlnum (uni : Char → Bool) (c : Char) : Bool := c.isAlphanum || (128 ≤ c.toNat && uni c)

/-- `is_valid_for_ident`, `src/_lib.rs` lines 646-648. -/
def validForIdent (uni : Char → Bool) (c : Char) : Bool := isAlnum uni c || c == '_'

/-- `mb_split_with`, `src/_lib.rs` lines 611-618. -/
def mbSplitWith (orig : Text) (r : Option (Text × Text)) : Text × Option Text :=
  match r with
  | none => (orig, none)
  | some (l, r) => (l, some r)

/-- Line 652: `path.rsplitn(2, ':').next().unwrap().trim()`. -/
def lastSegment (path : Text) : Text :=
  trim (match rsplitOnce ':' path with
    | some (_, r) => r
    | none => path)

/-- Lines 651-659: what a path without generics is turned into. -/
def headName (uni : Char → Bool) (path : Text) : Text :=
  if path.all (fun c => validForIdent uni c || c == ':') then lastSegment path
  else path.map (fun c => if validForIdent uni c then c else '_')

/-- Lines 647-650: `dyn ` in front of a path is turned into `dyn_`. -/
def splitDyn (path : Text) : Text × Text :=
  match stripPrefixStr "dyn ".toList path with
  | some traitPath => ("dyn_".toList, traitPath)
  | none => ([], path)

/-- `append_unqualified_name`, `src/_lib.rs` lines 605-669.  `none` is a panic (of an `unwrap`).  The recursion
is on strictly shorter strings; `fuel` bounds its depth. -/
def append (uni : Char → Bool) : Nat → Text → Text → Option Text
  | 0, _, _ => none
  | fuel + 1, out, tyName =>
      let tyName := trim tyName
      match stripPrefix '(' tyName with
      | some innards =>
          -- Tuple
          (stripSuffix ')' innards).bind fun innards =>
          (split ',' innards).foldlM (fun out generic => append uni fuel out generic) out
      | none =>
        match stripPrefix '[' tyName with
        | some innards =>
            -- Array or slice
            (stripSuffix ']' innards).bind fun innards =>
            let p := mbSplitWith innards (rsplitOnce ';' innards)
            (append uni fuel out p.1).bind fun out =>
            match p.2 with
            | some len => append uni fuel out len
            | none => some out
        | none =>
            -- Canonical type path
            let p := mbSplitWith tyName (splitOnce '<' tyName)
            let d := splitDyn p.1
            let out := out ++ ['_'] ++ d.1 ++ headName uni d.2
            match p.2 with
            | some generics =>
                (stripSuffix '>' generics).bind fun generics =>
                (split ',' generics).foldlM (fun out generic => append uni fuel out generic) out
            | none => some out

/-- The call made by users: enough fuel for any string. `src/_lib.rs` lines 604-669. -/
def appendUnqualifiedName (uni : Char → Bool) (out tyName : Text) : Option Text :=
  append uni (tyName.length + 1) out tyName
end Verif.Names
