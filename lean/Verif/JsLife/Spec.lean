import Verif.JsLife.Model
/-!
# What the life of a JavaScript callback should be

Everything here is in terms of the events of a history, not of the counts the code keeps.
-/
namespace Verif.JsLife

/-- How many handles of closure `c` exist: values, `Arc`s and counts owned by C code. -/
def handles (c : Nat) : List Ev → Nat
  | [] => 0
  | .created d _ _ :: l => if d = c then 1 else handles c l
  | .retained d :: l => if d = c then handles c l + 1 else handles c l
  | .released d :: l => if d = c then handles c l - 1 else handles c l
  | _ :: l => handles c l

/-- The closure is behind an `Arc`. -/
def isShared (c : Nat) (l : List Ev) : Prop := .shared c ∈ l

/-- What was last asked for: by default, the event loop does not wait. -/
def asked (c : Nat) : List Ev → Bool
  | [] => false
  | .waits d b _ :: l => if d = c then b else asked c l
  | _ :: l => asked c l

/-- How often the reference `r` has been deleted. -/
def deletions (r : Nat) : List Ev → Nat
  | [] => 0
  | .deleted q _ :: l => deletions r l + if q = r then 1 else 0
  | _ :: l => deletions r l

/-- How often call `n` has been made. -/
def runs (n : Nat) : List Ev → Nat
  | [] => 0
  | .invoked m _ :: l => runs n l + if m = n then 1 else 0
  | _ :: l => runs n l

/-- What the types of Rust, and the contract of the raw parts, allow after the events `l`: closures are used
by those who have a handle; `&mut` needs the only handle; `release` takes a handle away; a value that is
not behind an `Arc` has one handle. -/
def Allowed (l : List Ev) : Op → Prop
  | .wait c _ _ _ => handles c l = 1
  | .share c => handles c l = 1 ∧ ¬ isShared c l
  | .retain c => 0 < handles c l ∧ isShared c l
  | .release c _ => 0 < handles c l ∧ isShared c l
  | .drop c _ => handles c l = 1 ∧ ¬ isShared c l
  | .giveBack c => handles c l = 1 ∧ ¬ isShared c l
  | .call c _ => 0 < handles c l
  | .create .. | .turn _ | .gc _ => True

/-- Each operation of the history is allowed when it is made. -/
def Lawful (C : Cfg) : State → List Op → Prop
  | _, [] => True
  | s, op :: ops => Allowed s.log op ∧ Lawful C (step C s op) ops

/-- The event loop of Node.js goes on, whatever else happens. -/
def KeptAlive (s : State) : Prop := ∃ k, (s.tsfns k).referenced = true ∧ (s.tsfns k).closed = false

/-- The event loop has nothing left to do. -/
def Quiet (s : State) : Prop :=
  ∀ k, (s.tsfns k).queue = [] ∧ ((s.tsfns k).released = true → (s.tsfns k).closed = true)

/-- Neither `c` nor `r` has been used before. -/
def Unused (c r : Nat) (l : List Ev) : Prop :=
  (∀ f q, .created c f q ∉ l) ∧ (∀ f, .reference r f ∉ l)

/-- What an allowed operation on a live process makes of the events `l`. -/
def Effect (C : Cfg) (l l' : List Ev) : Op → Prop
  -- A closure is made, unless N-API fails.
  | .create f a b u =>
      if C.host = .wasm ∨ (a ∧ b ∧ u) then
        ∃ c r, Unused c r l ∧ l' = .created c f r :: .reference r f :: l
      else if a then ∃ r, l' = .refused :: .deleted r C.main :: .reference r f :: l
      else l' = .panicked :: l
  | .wait c b t ok => l' = if C.host = .node ∧ ok then .waits c b t :: l else l
  | .share c => l' = .shared c :: l
  | .retain c => l' = if C.limit < handles c l then .aborted :: l else .retained c :: l
  -- The last handle takes the reference with it.
  | .release c t | .drop c t =>
      if handles c l = 1 then ∃ f r, .created c f r ∈ l ∧ l' = .released c :: .deleted r t :: l
      else l' = .released c :: l
  -- A call that is new; it is made at once unless JavaScript has to do it later.
  | .call c t => ∃ n f r, runs n l = 0 ∧ (∀ d, .queued n d ∉ l) ∧ .created c f r ∈ l ∧
      l' = (if C.host = .node ∧ (C.detached ∨ t ≠ C.main) then .queued n c else .invoked n f) :: l
  | .giveBack c => ∃ f r, .created c f r ∈ l ∧
      l' = (if C.host = .wasm then .returned c f else .panicked) :: .released c :: .deleted r C.main :: l
  -- Nothing, or a call that was queued.
  | .turn _ => l' = l ∨ ∃ n c f r, .queued n c ∈ l ∧ runs n l = 0 ∧ .created c f r ∈ l ∧ l' = .invoked n f :: l
  | .gc _ => l' = l

end Verif.JsLife
