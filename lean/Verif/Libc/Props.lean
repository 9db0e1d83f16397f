import Verif.Libc.Model
/-!
# C100: the C types of the `libc` module
-/
namespace Verif.Libc

variable {T : Type}

theorem realLibc_type (types : String → Option T) (values : String → Bool) (cs : List (String × T)) (n : String) :
    ((realLibc (.crate types values) cs).find .type n) = (types n).map .type := by
  induction cs with
  | nil => simp [realLibc, Module.find, Module.look]
  | cons c cs ih => simpa [realLibc, Module.find, Module.look] using ih

theorem realLibc_value (libc : Module T) (cs : List (String × T)) (c : String × T) (h : c ∈ cs) :
    ((realLibc libc cs).find .value c.1) = some .const := by
  induction cs with
  | nil => cases h
  | cons d cs ih =>
    by_cases e : c.1 = d.1
    · simp [realLibc, Module.find, Module.look, e]
    · have hc : c ∈ cs := by
        rcases List.mem_cons.1 h with rfl | h
        · exact absurd rfl e
        · exact h
      have := ih hc
      simpa [realLibc, Module.find, Module.look, e] using this

theorem realLibc_resolves (types : String → Option T) (values : String → Bool) (cs : List (String × T)) :
    (realLibc (.crate types values) cs).resolves = true := by
  induction cs with
  | nil => rfl
  | cons c cs ih => simpa [realLibc, Module.resolves] using ih

theorem fallback_resolves (cs : List (String × T)) : (fallback cs).resolves = true := by
  induction cs with
  | nil => rfl
  | cons c cs ih => simpa [fallback, Module.resolves] using ih

theorem imports_resolves (real rest : Module T) (cs : List (String × T)) (hr : real.resolves = true) (h : rest.resolves = true)
    (hv : ∀ c ∈ cs, real.find .value c.1 = some .const) : (imports real rest cs).resolves = true := by
  induction cs with
  | nil => exact h
  | cons c cs ih =>
    simp [imports, Module.resolves, hr, hv c (by simp), ih fun d hd => hv d (by simp [hd])]

theorem fallback_type (cs : List (String × T)) (hd : (cs.map (·.1)).Nodup) (c : String × T) (h : c ∈ cs) :
    (fallback cs).find .type c.1 = some (.type c.2) := by
  induction cs with
  | nil => cases h
  | cons d cs ih =>
    simp only [List.map_cons, List.nodup_cons] at hd
    rcases List.mem_cons.1 h with rfl | h
    · simp [fallback, Module.find, Module.look]
    · have hne : c.1 ≠ d.1 := fun e => hd.1 (e ▸ List.mem_map.2 ⟨c, h, rfl⟩)
      have := ih hd.2 h
      simpa [fallback, Module.find, Module.look, hne] using this

theorem imports_look_snd (real rest : Module T) (cs : List (String × T)) (ns : Ns) (n : String) :
    ((imports real rest cs).look ns n).2 = (rest.look ns n).2 := by
  induction cs with
  | nil => rfl
  | cons c cs ih =>
    simp only [imports, Module.look]
    split <;> simp [ih]

theorem imports_look_none (real rest : Module T) (cs : List (String × T)) (ns : Ns) (n : String) (h : real.find ns n = none) :
    ((imports real rest cs).look ns n).1 = (rest.look ns n).1 := by
  simp only [Module.find, Option.or_eq_none_iff] at h
  induction cs with
  | nil => rfl
  | cons c cs ih =>
    simp only [imports, Module.look]
    split <;> simp [ih, h.1, h.2]

theorem imports_look_some (real rest : Module T) (cs : List (String × T)) (ns : Ns) (c : String × T) (hc : c ∈ cs) (x : Ent T)
    (h : real.find ns c.1 = some x) : ((imports real rest cs).look ns c.1).1 = some x := by
  induction cs with
  | nil => cases hc
  | cons d cs ih =>
    simp only [imports, Module.look]
    by_cases e : c.1 = d.1
    · rw [if_pos e]
      simp only [Module.find] at h
      show ((real.look ns c.1).1.or ((real.look ns c.1).2.or _)) = _
      rw [← Option.or_assoc, h]; rfl
    · rw [if_neg e]
      refine ih ?_
      rcases List.mem_cons.1 hc with rfl | h
      · exact absurd rfl e
      · exact h

theorem helper_type (types : String → Option T) (values : String → Bool) (cs : List (String × T)) (hd : (cs.map (·.1)).Nodup)
    (c : String × T) (h : c ∈ cs) :
    (helper (.crate types values) cs).find .type c.1 = some (.type ((types c.1).getD c.2)) := by
  have hr := realLibc_type types values cs c.1
  cases ht : types c.1 with
  | some t =>
    rw [ht] at hr
    rw [Module.find, helper, imports_look_some _ _ _ _ c h _ hr]; rfl
  | none =>
    rw [ht] at hr
    have hf := fallback_type cs hd c h
    rw [Module.find] at hf
    rw [Module.find, helper, imports_look_none _ _ _ _ _ hr, imports_look_snd]
    simp [Module.look, hf]

theorem mapM_some {α β : Type} (f : α → Option β) (g : α → β) (l : List α) (h : ∀ a ∈ l, f a = some (g a)) :
    l.mapM f = some (l.map g) := by
  induction l with
  | nil => rfl
  | cons a l ih => simp [List.mapM_cons, h a (by simp), ih fun b hb => h b (by simp [hb])]

/-- Whatever types the platform's `libc` has, and whatever values: the crate compiles, it exports each of the names as one type,
and this is the type of `libc` where it has one of this name, and the one that stands in otherwise. -/
theorem C100_types (types : String → Option T) (values : String → Bool) (cs : List (String × T)) (hd : (cs.map (·.1)).Nodup) :
    aliases (.crate types values) cs = some (cs.map fun c => (c.1, (types c.1).getD c.2)) := by
  rw [aliases, if_pos]
  · exact mapM_some _ _ _ fun c hc => by rw [helper_type types values cs hd c hc]
  · exact imports_resolves _ _ _ (realLibc_resolves types values cs) (by simp [Module.resolves, fallback_resolves])
      (realLibc_value _ cs)

/-- The names of the module, on every platform. -/
theorem C100_names (types : String → Option String) (values : String → Bool) :
    aliases (.crate types values) cTypes = some [
      ("c_char", (types "c_char").getD "u8"), ("c_int", (types "c_int").getD "core::ffi::c_int"),
      ("size_t", (types "size_t").getD "usize"), ("uintptr_t", (types "uintptr_t").getD "usize")] :=
  C100_types types values cTypes (by decide)

-- Linux has all of them; `wasm32-unknown-unknown` none
example : aliases (.crate (fun n => if n = "c_char" then some "i8" else if n = "c_int" then some "i32" else some "usize") fun _ => false) cTypes =
    some [("c_char", "i8"), ("c_int", "i32"), ("size_t", "usize"), ("uintptr_t", "usize")] := by decide +kernel
example : aliases (.crate (fun _ => none) fun _ => false) cTypes =
    some [("c_char", "u8"), ("c_int", "core::ffi::c_int"), ("size_t", "usize"), ("uintptr_t", "usize")] := by decide +kernel
example : (cTypes.map (·.1)).Nodup := by decide

end Verif.Libc
