import Verif.JsLife.Spec
/-! # The invariant of the histories -/
namespace Verif.JsLife

/-- What holds between the state and the events. -/
structure Inv (C : Cfg) (s : State) : Prop where
  hand : ∀ c, handles c s.log = if (s.objs c).freed then 0 else (s.objs c).strong
  pos : ∀ c, (s.objs c).freed = false → 0 < (s.objs c).strong ∧ c < s.nobjs
  shar : ∀ c, isShared c s.log ↔ (s.objs c).boxed = true
  sharN : ∀ c, (s.objs c).boxed = true → c < s.nobjs
  ref : ∀ c, (s.objs c).freed = false → (s.refs (s.objs c).ref).live = true
  rfn : ∀ c, c < s.nobjs → (s.objs c).ref < s.nrefs ∧ (s.refs (s.objs c).ref).fn = (s.objs c).fn
  rinj : ∀ c d, c < s.nobjs → d < s.nobjs → (s.objs c).ref = (s.objs d).ref → c = d
  rown : ∀ r, (s.refs r).live = true → r < s.nrefs ∧ ∃ c, (s.objs c).freed = false ∧ (s.objs c).ref = r
  rdel : ∀ r, deletions r s.log = if r < s.nrefs ∧ (s.refs r).live = false then 1 else 0
  rev : ∀ r f, .reference r f ∈ s.log → r < s.nrefs ∧ (s.refs r).fn = f
  made : ∀ c f r, .created c f r ∈ s.log ↔ c < s.nobjs ∧ (s.objs c).fn = f ∧ (s.objs c).ref = r
  ts : C.host = .node → ∀ c, (s.objs c).freed = false →
    (s.tsfns (s.objs c).tsfn).released = false ∧
    (s.tsfns (s.objs c).tsfn).referenced = asked c s.log
  tfn : C.host = .node → ∀ c, c < s.nobjs → (s.objs c).tsfn < s.ntsfns ∧
    (s.tsfns (s.objs c).tsfn).fn = (s.objs c).fn
  tinj : C.host = .node → ∀ c d, c < s.nobjs → d < s.nobjs → (s.objs c).tsfn = (s.objs d).tsfn → c = d
  town : ∀ k, (s.tsfns k).released = false → C.host = .node ∧ ∃ c, (s.objs c).freed = false ∧ (s.objs c).tsfn = k
  tN : ∀ k, (s.tsfns k).closed = false → k < s.ntsfns
  tcl : ∀ k, (s.tsfns k).closed = true → (s.tsfns k).released = true ∧ (s.tsfns k).queue = []
  askN : ∀ c, asked c s.log = true → c < s.nobjs
  goneR : ∀ f, f ∈ s.gone → ∀ r, (s.refs r).live = true → (s.refs r).fn ≠ f
  goneT : ∀ f, f ∈ s.gone → ∀ k, (s.tsfns k).closed = false → (s.tsfns k).fn ≠ f
  qlt : ∀ k n, n ∈ (s.tsfns k).queue → n < s.ncalls ∧ runs n s.log = 0
  qnd : ∀ k, (s.tsfns k).queue.Nodup
  qdis : ∀ k l n, n ∈ (s.tsfns k).queue → n ∈ (s.tsfns l).queue → k = l
  qrun : ∀ n c, .queued n c ∈ s.log → C.host = .node ∧ c < s.nobjs ∧ n < s.ncalls ∧
    (n ∈ (s.tsfns (s.objs c).tsfn).queue ∨ (.invoked n (s.objs c).fn ∈ s.log))
  run1 : ∀ n, runs n s.log ≤ 1
  runN : ∀ n, s.ncalls ≤ n → runs n s.log = 0
  good : .bad ∉ s.log

theorem inv_init (C : Cfg) : Inv C {} := by
  constructor <;> simp [handles, deletions, runs, asked, isShared]

attribute [grind] upd handles deletions runs asked isShared

section
variable {C : Cfg} {s : State} (h : Inv C s)
include h

/-- Events that none of the specifications look at. -/
theorem Inv.skip (e : Ev) (he : e = .refused ∨ e = .panicked ∨ e = .aborted ∨ (∃ c f, e = .returned c f)) :
    Inv C { s with log := e :: s.log } := by
  constructor
  case hand => have := h.hand; grind
  case pos => have := h.pos; grind
  case shar => have := h.shar; grind
  case sharN => have := h.sharN; grind
  case ref => have := h.ref; grind
  case rfn => have := h.rfn; grind
  case rinj => have := h.rinj; grind
  case rown => have := h.rown; grind
  case rdel => have := h.rdel; grind
  case rev => have := h.rev; grind
  case made => have := h.made; grind
  case ts => have := h.ts; grind
  case tfn => have := h.tfn; grind
  case tinj => have := h.tinj; grind
  case town => have := h.town; grind
  case tN => have := h.tN; grind
  case tcl => have := h.tcl; grind
  case askN => have := h.askN; grind
  case goneR => have := h.goneR; grind
  case goneT => have := h.goneT; grind
  case qlt => have := h.qlt; grind
  case qnd => have := h.qnd; grind
  case qdis => have := h.qdis; grind
  case qrun => have := h.qrun; grind
  case run1 => have := h.run1; grind
  case runN => have := h.runN; grind
  case good => have := h.good; grind

theorem Inv.dead (b : Bool) :
    Inv C { s with dead := b } := by
  constructor
  case hand => have := h.hand; grind
  case pos => have := h.pos; grind
  case shar => have := h.shar; grind
  case sharN => have := h.sharN; grind
  case ref => have := h.ref; grind
  case rfn => have := h.rfn; grind
  case rinj => have := h.rinj; grind
  case rown => have := h.rown; grind
  case rdel => have := h.rdel; grind
  case rev => have := h.rev; grind
  case made => have := h.made; grind
  case ts => have := h.ts; grind
  case tfn => have := h.tfn; grind
  case tinj => have := h.tinj; grind
  case town => have := h.town; grind
  case tN => have := h.tN; grind
  case tcl => have := h.tcl; grind
  case askN => have := h.askN; grind
  case goneR => have := h.goneR; grind
  case goneT => have := h.goneT; grind
  case qlt => have := h.qlt; grind
  case qnd => have := h.qnd; grind
  case qdis => have := h.qdis; grind
  case qrun => have := h.qrun; grind
  case run1 => have := h.run1; grind
  case runN => have := h.runN; grind
  case good => have := h.good; grind

theorem Inv.count (m : Nat) (hm : s.ncalls ≤ m) :
    Inv C { s with ncalls := m } := by
  constructor
  case hand => have := h.hand; grind
  case pos => have := h.pos; grind
  case shar => have := h.shar; grind
  case sharN => have := h.sharN; grind
  case ref => have := h.ref; grind
  case rfn => have := h.rfn; grind
  case rinj => have := h.rinj; grind
  case rown => have := h.rown; grind
  case rdel => have := h.rdel; grind
  case rev => have := h.rev; grind
  case made => have := h.made; grind
  case ts => have := h.ts; grind
  case tfn => have := h.tfn; grind
  case tinj => have := h.tinj; grind
  case town => have := h.town; grind
  case tN => have := h.tN; grind
  case tcl => have := h.tcl; grind
  case askN => have := h.askN; grind
  case goneR => have := h.goneR; grind
  case goneT => have := h.goneT; grind
  case qlt => have := h.qlt; grind
  case qnd => have := h.qnd; grind
  case qdis => have := h.qdis; grind
  case qrun => have := h.qrun; grind
  case run1 => have := h.run1; grind
  case runN => have := h.runN; grind
  case good => have := h.good; grind

theorem Inv.wait {c : Nat} (b : Bool) (t : Nat) (hn : C.host = .node) (hc : (s.objs c).freed = false) :
    Inv C { s with tsfns := upd s.tsfns (s.objs c).tsfn { s.tsfns (s.objs c).tsfn with referenced := b }, log := .waits c b t :: s.log } := by
  constructor
  case hand => have := h.hand; grind
  case pos => have := h.pos; grind
  case shar => have := h.shar; grind
  case sharN => have := h.sharN; grind
  case ref => have := h.ref; grind
  case rfn => have := h.rfn; grind
  case rinj => have := h.rinj; grind
  case rown => have := h.rown; grind
  case rdel => have := h.rdel; grind
  case rev => have := h.rev; grind
  case made => have := h.made; grind
  case ts => have := h.ts; have := h.tinj; have := h.pos; grind
  case tfn => have := h.tfn; grind
  case tinj => have := h.tinj; grind
  case town => have := h.town; grind
  case tN => have := h.tN; grind
  case tcl => have := h.tcl; grind
  case askN => have := h.askN; have := h.pos; grind
  case goneR => have := h.goneR; grind
  case goneT => have := h.goneT; grind
  case qlt => have := h.qlt; grind
  case qnd => have := h.qnd; grind
  case qdis => have := h.qdis; grind
  case qrun => have := h.qrun; grind
  case run1 => have := h.run1; grind
  case runN => have := h.runN; grind
  case good => have := h.good; grind

theorem Inv.share {c : Nat} (hc : (s.objs c).freed = false) :
    Inv C { s with objs := upd s.objs c { s.objs c with boxed := true }, log := .shared c :: s.log } := by
  constructor
  case hand => have := h.hand; grind
  case pos => have := h.pos; grind
  case shar => have := h.shar; grind
  case sharN => have := h.sharN; have := h.pos; grind
  case ref => have := h.ref; grind
  case rfn => have := h.rfn; grind
  case rinj => have := h.rinj; grind
  case rown =>
    intro r hr; obtain ⟨a, d, h2, h3⟩ := h.rown r (by grind); have := h.pos; exact ⟨by grind, d, by grind, by grind⟩
  case rdel => have := h.rdel; grind
  case rev => have := h.rev; grind
  case made => have := h.made; grind
  case ts => have := h.ts; grind
  case tfn => have := h.tfn; grind
  case tinj => have := h.tinj; grind
  case town =>
    intro k hk; obtain ⟨a, d, h2, h3⟩ := h.town k (by grind); have := h.pos; exact ⟨a, d, by grind, by grind⟩
  case tN => have := h.tN; grind
  case tcl => have := h.tcl; grind
  case askN => have := h.askN; grind
  case goneR => have := h.goneR; grind
  case goneT => have := h.goneT; grind
  case qlt => have := h.qlt; grind
  case qnd => have := h.qnd; grind
  case qdis => have := h.qdis; grind
  case qrun => have := h.qrun; grind
  case run1 => have := h.run1; grind
  case runN => have := h.runN; grind
  case good => have := h.good; grind

theorem Inv.retain {c : Nat} (hc : (s.objs c).freed = false) :
    Inv C { s with objs := upd s.objs c { s.objs c with strong := (s.objs c).strong + 1 }, log := .retained c :: s.log } := by
  constructor
  case hand => have := h.hand; grind
  case pos => have := h.pos; grind
  case shar => have := h.shar; grind
  case sharN => have := h.sharN; have := h.pos; grind
  case ref => have := h.ref; grind
  case rfn => have := h.rfn; grind
  case rinj => have := h.rinj; grind
  case rown =>
    intro r hr; obtain ⟨a, d, h2, h3⟩ := h.rown r (by grind); have := h.pos; exact ⟨by grind, d, by grind, by grind⟩
  case rdel => have := h.rdel; grind
  case rev => have := h.rev; grind
  case made => have := h.made; grind
  case ts => have := h.ts; grind
  case tfn => have := h.tfn; grind
  case tinj => have := h.tinj; grind
  case town =>
    intro k hk; obtain ⟨a, d, h2, h3⟩ := h.town k (by grind); have := h.pos; exact ⟨a, d, by grind, by grind⟩
  case tN => have := h.tN; grind
  case tcl => have := h.tcl; grind
  case askN => have := h.askN; grind
  case goneR => have := h.goneR; grind
  case goneT => have := h.goneT; grind
  case qlt => have := h.qlt; grind
  case qnd => have := h.qnd; grind
  case qdis => have := h.qdis; grind
  case qrun => have := h.qrun; grind
  case run1 => have := h.run1; grind
  case runN => have := h.runN; grind
  case good => have := h.good; grind

theorem Inv.less {c : Nat} (hc : (s.objs c).freed = false) (h1 : (s.objs c).strong ≠ 1) :
    Inv C { s with objs := upd s.objs c { s.objs c with strong := (s.objs c).strong - 1 }, log := .released c :: s.log } := by
  constructor
  case hand => have := h.hand; grind
  case pos => have := h.pos; grind
  case shar => have := h.shar; grind
  case sharN => have := h.sharN; have := h.pos; grind
  case ref => have := h.ref; grind
  case rfn => have := h.rfn; grind
  case rinj => have := h.rinj; grind
  case rown =>
    intro r hr; obtain ⟨a, d, h2, h3⟩ := h.rown r (by grind); have := h.pos; exact ⟨by grind, d, by grind, by grind⟩
  case rdel => have := h.rdel; grind
  case rev => have := h.rev; grind
  case made => have := h.made; grind
  case ts => have := h.ts; grind
  case tfn => have := h.tfn; grind
  case tinj => have := h.tinj; grind
  case town =>
    intro k hk; obtain ⟨a, d, h2, h3⟩ := h.town k (by grind); have := h.pos; exact ⟨a, d, by grind, by grind⟩
  case tN => have := h.tN; grind
  case tcl => have := h.tcl; grind
  case askN => have := h.askN; grind
  case goneR => have := h.goneR; grind
  case goneT => have := h.goneT; grind
  case qlt => have := h.qlt; grind
  case qnd => have := h.qnd; grind
  case qdis => have := h.qdis; grind
  case qrun => have := h.qrun; grind
  case run1 => have := h.run1; grind
  case runN => have := h.runN; grind
  case good => have := h.good; grind

theorem Inv.gone {c : Nat} (t : Nat) (hn : C.host = .node) (hc : (s.objs c).freed = false) (h1 : (s.objs c).strong = 1) :
    Inv C { s with objs := upd s.objs c { s.objs c with freed := true, strong := 0 }, refs := upd s.refs (s.objs c).ref { s.refs (s.objs c).ref with live := false }, tsfns := upd s.tsfns (s.objs c).tsfn { s.tsfns (s.objs c).tsfn with released := true }, log := .released c :: .deleted (s.objs c).ref t :: s.log } := by
  constructor
  case hand => have := h.hand; grind
  case pos => have := h.pos; grind
  case shar => have := h.shar; grind
  case sharN => have := h.sharN; grind
  case ref => have := h.ref; have := h.rinj; have := h.pos; grind
  case rfn => have := h.rfn; grind
  case rinj => have := h.rinj; grind
  case rown =>
    intro r hr; obtain ⟨a, d, h2, h3⟩ := h.rown r (by grind); have := h.pos; exact ⟨by grind, d, by grind, by grind⟩
  case rdel => have := h.rdel; have := h.ref; have := h.rfn; have := h.pos; grind
  case rev => have := h.rev; grind
  case made => have := h.made; grind
  case ts => have := h.ts; have := h.tinj; have := h.pos; grind
  case tfn => have := h.tfn; grind
  case tinj => have := h.tinj; grind
  case town =>
    intro k hk; obtain ⟨a, d, h2, h3⟩ := h.town k (by grind); have := h.pos; exact ⟨a, d, by grind, by grind⟩
  case tN => have := h.tN; grind
  case tcl => have := h.tcl; grind
  case askN => have := h.askN; grind
  case goneR => have := h.goneR; grind
  case goneT => have := h.goneT; grind
  case qlt => have := h.qlt; grind
  case qnd => have := h.qnd; grind
  case qdis => have := h.qdis; grind
  case qrun => have := h.qrun; grind
  case run1 => have := h.run1; grind
  case runN => have := h.runN; grind
  case good => have := h.good; grind

theorem Inv.goneW {c : Nat} (t : Nat) (hn : C.host = .wasm) (hc : (s.objs c).freed = false) (h1 : (s.objs c).strong = 1) :
    Inv C { s with objs := upd s.objs c { s.objs c with freed := true, strong := 0 }, refs := upd s.refs (s.objs c).ref { s.refs (s.objs c).ref with live := false }, log := .released c :: .deleted (s.objs c).ref t :: s.log } := by
  constructor
  case hand => have := h.hand; grind
  case pos => have := h.pos; grind
  case shar => have := h.shar; grind
  case sharN => have := h.sharN; grind
  case ref => have := h.ref; have := h.rinj; have := h.pos; grind
  case rfn => have := h.rfn; grind
  case rinj => have := h.rinj; grind
  case rown =>
    intro r hr; obtain ⟨a, d, h2, h3⟩ := h.rown r (by grind); have := h.pos; exact ⟨by grind, d, by grind, by grind⟩
  case rdel => have := h.rdel; have := h.ref; have := h.rfn; have := h.pos; grind
  case rev => have := h.rev; grind
  case made => have := h.made; grind
  case ts => have := h.ts; grind
  case tfn => have := h.tfn; grind
  case tinj => have := h.tinj; grind
  case town =>
    intro k hk; obtain ⟨a, d, h2, h3⟩ := h.town k (by grind); have := h.pos; exact ⟨a, d, by grind, by grind⟩
  case tN => have := h.tN; grind
  case tcl => have := h.tcl; grind
  case askN => have := h.askN; grind
  case goneR => have := h.goneR; grind
  case goneT => have := h.goneT; grind
  case qlt => have := h.qlt; grind
  case qnd => have := h.qnd; grind
  case qdis => have := h.qdis; grind
  case qrun => have := h.qrun; grind
  case run1 => have := h.run1; grind
  case runN => have := h.runN; grind
  case good => have := h.good; grind

theorem Inv.queue {c : Nat} (hn : C.host = .node) (hc : (s.objs c).freed = false) :
    Inv C { s with ncalls := s.ncalls + 1, tsfns := upd s.tsfns (s.objs c).tsfn { s.tsfns (s.objs c).tsfn with queue := (s.tsfns (s.objs c).tsfn).queue ++ [s.ncalls] }, log := .queued s.ncalls c :: s.log } := by
  constructor
  case hand => have := h.hand; grind
  case pos => have := h.pos; grind
  case shar => have := h.shar; grind
  case sharN => have := h.sharN; grind
  case ref => have := h.ref; grind
  case rfn => have := h.rfn; grind
  case rinj => have := h.rinj; grind
  case rown => have := h.rown; grind
  case rdel => have := h.rdel; grind
  case rev => have := h.rev; grind
  case made => have := h.made; grind
  case ts => have := h.ts; grind
  case tfn => have := h.tfn; grind
  case tinj => have := h.tinj; grind
  case town => have := h.town; grind
  case tN => have := h.tN; grind
  case tcl => have := h.tcl; have := h.ts; grind
  case askN => have := h.askN; grind
  case goneR => have := h.goneR; grind
  case goneT => have := h.goneT; grind
  case qlt => have := h.qlt; have := h.runN; grind
  case qnd => have := h.qnd; have := h.qlt; grind
  case qdis => have := h.qdis; have := h.qlt; grind
  case qrun => have := h.qrun; have := h.pos; grind
  case run1 => have := h.run1; grind
  case runN => have := h.runN; grind
  case good => have := h.good; grind

theorem Inv.invoke (f : Nat) :
    Inv C { s with ncalls := s.ncalls + 1, log := .invoked s.ncalls f :: s.log } := by
  constructor
  case hand => have := h.hand; grind
  case pos => have := h.pos; grind
  case shar => have := h.shar; grind
  case sharN => have := h.sharN; grind
  case ref => have := h.ref; grind
  case rfn => have := h.rfn; grind
  case rinj => have := h.rinj; grind
  case rown => have := h.rown; grind
  case rdel => have := h.rdel; grind
  case rev => have := h.rev; grind
  case made => have := h.made; grind
  case ts => have := h.ts; grind
  case tfn => have := h.tfn; grind
  case tinj => have := h.tinj; grind
  case town => have := h.town; grind
  case tN => have := h.tN; grind
  case tcl => have := h.tcl; grind
  case askN => have := h.askN; grind
  case goneR => have := h.goneR; grind
  case goneT => have := h.goneT; grind
  case qlt => have := h.qlt; have := h.runN; grind
  case qnd => have := h.qnd; grind
  case qdis => have := h.qdis; grind
  case qrun => have := h.qrun; grind
  case run1 => have := h.run1; have := h.runN; grind
  case runN => have := h.runN; grind
  case good => have := h.good; grind

theorem Inv.pop {k n : Nat} {q : List Nat} (hq : (s.tsfns k).queue = n :: q) :
    Inv C { s with tsfns := upd s.tsfns k { s.tsfns k with queue := q }, log := .invoked n (s.tsfns k).fn :: s.log } := by
  constructor
  case hand => have := h.hand; grind
  case pos => have := h.pos; grind
  case shar => have := h.shar; grind
  case sharN => have := h.sharN; grind
  case ref => have := h.ref; grind
  case rfn => have := h.rfn; grind
  case rinj => have := h.rinj; grind
  case rown => have := h.rown; grind
  case rdel => have := h.rdel; grind
  case rev => have := h.rev; grind
  case made => have := h.made; grind
  case ts => have := h.ts; grind
  case tfn => have := h.tfn; grind
  case tinj => have := h.tinj; grind
  case town => have := h.town; grind
  case tN => have := h.tN; grind
  case tcl => have := h.tcl; grind
  case askN => have := h.askN; grind
  case goneR => have := h.goneR; grind
  case goneT => have := h.goneT; grind
  case qlt => have := h.qlt; have := h.qnd; have := h.qdis; grind
  case qnd => have := h.qnd; grind
  case qdis => have := h.qdis; grind
  case qrun => have := h.qrun; have := h.tfn; have := h.qdis; grind
  case run1 => have := h.run1; have := h.qlt; grind
  case runN => have := h.runN; have := h.qlt; grind
  case good => have := h.good; grind

theorem Inv.close {k : Nat} (hq : (s.tsfns k).queue = []) (hr : (s.tsfns k).released = true) :
    Inv C { s with tsfns := upd s.tsfns k { s.tsfns k with closed := true } } := by
  constructor
  case hand => have := h.hand; grind
  case pos => have := h.pos; grind
  case shar => have := h.shar; grind
  case sharN => have := h.sharN; grind
  case ref => have := h.ref; grind
  case rfn => have := h.rfn; grind
  case rinj => have := h.rinj; grind
  case rown => have := h.rown; grind
  case rdel => have := h.rdel; grind
  case rev => have := h.rev; grind
  case made => have := h.made; grind
  case ts => have := h.ts; grind
  case tfn => have := h.tfn; grind
  case tinj => have := h.tinj; grind
  case town => have := h.town; grind
  case tN => have := h.tN; grind
  case tcl => have := h.tcl; grind
  case askN => have := h.askN; grind
  case goneR => have := h.goneR; grind
  case goneT => have := h.goneT; grind
  case qlt => have := h.qlt; grind
  case qnd => have := h.qnd; grind
  case qdis => have := h.qdis; grind
  case qrun => have := h.qrun; grind
  case run1 => have := h.run1; grind
  case runN => have := h.runN; grind
  case good => have := h.good; grind

theorem Inv.collect {f : Nat} (h1 : ∀ r, (s.refs r).live = true → (s.refs r).fn ≠ f) (h2 : ∀ k, (s.tsfns k).closed = false → (s.tsfns k).fn ≠ f) :
    Inv C { s with gone := f :: s.gone } := by
  constructor
  case hand => have := h.hand; grind
  case pos => have := h.pos; grind
  case shar => have := h.shar; grind
  case sharN => have := h.sharN; grind
  case ref => have := h.ref; grind
  case rfn => have := h.rfn; grind
  case rinj => have := h.rinj; grind
  case rown => have := h.rown; grind
  case rdel => have := h.rdel; grind
  case rev => have := h.rev; grind
  case made => have := h.made; grind
  case ts => have := h.ts; grind
  case tfn => have := h.tfn; grind
  case tinj => have := h.tinj; grind
  case town => have := h.town; grind
  case tN => have := h.tN; grind
  case tcl => have := h.tcl; grind
  case askN => have := h.askN; grind
  case goneR => have := h.goneR; grind
  case goneT => have := h.goneT; grind
  case qlt => have := h.qlt; grind
  case qnd => have := h.qnd; grind
  case qdis => have := h.qdis; grind
  case qrun => have := h.qrun; grind
  case run1 => have := h.run1; grind
  case runN => have := h.runN; grind
  case good => have := h.good; grind

theorem Inv.fresh0 (f t : Nat) :
    Inv C { s with refs := upd s.refs s.nrefs { fn := f, live := false }, nrefs := s.nrefs + 1, log := .deleted s.nrefs t :: .reference s.nrefs f :: s.log } := by
  constructor
  case hand => have := h.hand; grind
  case pos => have := h.pos; grind
  case shar => have := h.shar; grind
  case sharN => have := h.sharN; grind
  case ref => have := h.ref; have := h.rfn; have := h.pos; grind
  case rfn => have := h.rfn; grind
  case rinj => have := h.rinj; grind
  case rown => have := h.rown; grind
  case rdel => have := h.rdel; have := h.rown; grind
  case rev => have := h.rev; grind
  case made => have := h.made; grind
  case ts => have := h.ts; grind
  case tfn => have := h.tfn; grind
  case tinj => have := h.tinj; grind
  case town => have := h.town; grind
  case tN => have := h.tN; grind
  case tcl => have := h.tcl; grind
  case askN => have := h.askN; grind
  case goneR => have := h.goneR; grind
  case goneT => have := h.goneT; grind
  case qlt => have := h.qlt; grind
  case qnd => have := h.qnd; grind
  case qdis => have := h.qdis; grind
  case qrun => have := h.qrun; grind
  case run1 => have := h.run1; grind
  case runN => have := h.runN; grind
  case good => have := h.good; grind

theorem Inv.fresh1 (f t : Nat) (b : Bool) (hf : f ∉ s.gone) :
    Inv C { s with refs := upd s.refs s.nrefs { fn := f, live := false }, nrefs := s.nrefs + 1, tsfns := upd s.tsfns s.ntsfns { fn := f, referenced := b, released := true, closed := false }, ntsfns := s.ntsfns + 1, log := .deleted s.nrefs t :: .reference s.nrefs f :: s.log } := by
  constructor
  case hand => have := h.hand; grind
  case pos => have := h.pos; grind
  case shar => have := h.shar; grind
  case sharN => have := h.sharN; grind
  case ref => have := h.ref; have := h.rfn; have := h.pos; grind
  case rfn => have := h.rfn; grind
  case rinj => have := h.rinj; grind
  case rown => have := h.rown; grind
  case rdel => have := h.rdel; have := h.rown; grind
  case rev => have := h.rev; grind
  case made => have := h.made; grind
  case ts => have := h.ts; have := h.tfn; have := h.pos; grind
  case tfn => have := h.tfn; grind
  case tinj => have := h.tinj; grind
  case town => have := h.town; grind
  case tN => have := h.tN; grind
  case tcl => have := h.tcl; grind
  case askN => have := h.askN; grind
  case goneR => have := h.goneR; grind
  case goneT => have := h.goneT; grind
  case qlt => have := h.qlt; grind
  case qnd => have := h.qnd; grind
  case qdis => have := h.qdis; grind
  case qrun => have := h.qrun; have := h.tfn; have := h.tcl; have := h.tN; grind
  case run1 => have := h.run1; grind
  case runN => have := h.runN; grind
  case good => have := h.good; grind

theorem Inv.new (f : Nat) (hn : C.host = .node) (hf : f ∉ s.gone) :
    Inv C { s with refs := upd s.refs s.nrefs { fn := f, live := true }, nrefs := s.nrefs + 1, tsfns := upd s.tsfns s.ntsfns { fn := f, referenced := false, released := false, closed := false }, ntsfns := s.ntsfns + 1, objs := upd s.objs s.nobjs { fn := f, ref := s.nrefs, tsfn := s.ntsfns, strong := 1, freed := false }, nobjs := s.nobjs + 1, log := .created s.nobjs f s.nrefs :: .reference s.nrefs f :: s.log } := by
  constructor
  case hand => have := h.hand; grind
  case pos => have := h.pos; grind
  case shar =>
    intro c; have := h.shar c; have := h.sharN c; simp only [isShared, List.mem_cons] at *; grind
  case sharN => have := h.sharN; grind
  case ref => have := h.ref; have := h.rfn; have := h.pos; grind
  case rfn => have := h.rfn; grind
  case rinj => have := h.rinj; have := h.rfn; grind
  case rown =>
    intro r hr
    by_cases hr0 : r = s.nrefs
    · exact ⟨by grind, s.nobjs, by grind, by grind⟩
    · obtain ⟨a, d, h2, h3⟩ := h.rown r (by grind); have := h.pos; exact ⟨by grind, d, by grind, by grind⟩
  case rdel => have := h.rdel; have := h.rown; grind
  case rev => have := h.rev; grind
  case made => have := h.made; grind
  case ts => have := h.ts; have := h.tfn; have := h.pos; have := h.askN; grind
  case tfn => have := h.tfn; grind
  case tinj => have := h.tinj; have := h.tfn; grind
  case town =>
    intro k hk
    by_cases hr0 : k = s.ntsfns
    · exact ⟨hn, s.nobjs, by grind, by grind⟩
    · obtain ⟨a, d, h2, h3⟩ := h.town k (by grind); have := h.pos; exact ⟨a, d, by grind, by grind⟩
  case tN => have := h.tN; grind
  case tcl => have := h.tcl; grind
  case askN => have := h.askN; grind
  case goneR => have := h.goneR; grind
  case goneT => have := h.goneT; grind
  case qlt => have := h.qlt; grind
  case qnd => have := h.qnd; grind
  case qdis => have := h.qdis; grind
  case qrun => have := h.qrun; have := h.tfn; have := h.tcl; have := h.tN; grind
  case run1 => have := h.run1; grind
  case runN => have := h.runN; grind
  case good => have := h.good; grind

theorem Inv.newW (f : Nat) (hn : C.host = .wasm) (hf : f ∉ s.gone) :
    Inv C { s with refs := upd s.refs s.nrefs { fn := f, live := true }, nrefs := s.nrefs + 1, objs := upd s.objs s.nobjs { fn := f, ref := s.nrefs, tsfn := 0, strong := 1, freed := false }, nobjs := s.nobjs + 1, log := .created s.nobjs f s.nrefs :: .reference s.nrefs f :: s.log } := by
  constructor
  case hand => have := h.hand; grind
  case pos => have := h.pos; grind
  case shar =>
    intro c; have := h.shar c; have := h.sharN c; simp only [isShared, List.mem_cons] at *; grind
  case sharN => have := h.sharN; grind
  case ref => have := h.ref; have := h.rfn; have := h.pos; grind
  case rfn => have := h.rfn; grind
  case rinj => have := h.rinj; have := h.rfn; grind
  case rown =>
    intro r hr
    by_cases hr0 : r = s.nrefs
    · exact ⟨by grind, s.nobjs, by grind, by grind⟩
    · obtain ⟨a, d, h2, h3⟩ := h.rown r (by grind); have := h.pos; exact ⟨by grind, d, by grind, by grind⟩
  case rdel => have := h.rdel; have := h.rown; grind
  case rev => have := h.rev; grind
  case made => have := h.made; grind
  case ts => have := h.ts; grind
  case tfn => have := h.tfn; grind
  case tinj => have := h.tinj; grind
  case town =>
    intro k hk; obtain ⟨a, d, h2, h3⟩ := h.town k (by grind); have := h.pos; exact ⟨a, d, by grind, by grind⟩
  case tN => have := h.tN; grind
  case tcl => have := h.tcl; grind
  case askN => have := h.askN; grind
  case goneR => have := h.goneR; grind
  case goneT => have := h.goneT; grind
  case qlt => have := h.qlt; grind
  case qnd => have := h.qnd; grind
  case qdis => have := h.qdis; grind
  case qrun => have := h.qrun; grind
  case run1 => have := h.run1; grind
  case runN => have := h.runN; grind
  case good => have := h.good; grind

end
end Verif.JsLife
