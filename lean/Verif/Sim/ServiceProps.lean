import Verif.Sim.Service

/-! Property C90: the services of the simulator. -/
namespace Verif.Sim.Service
open Verif.Tree (Comp Ctn Composite addComponent deleteComponent)

/-! ### Specification -/

/-- The service that a call adds, given what it raises. -/
def Op.gains : Op → Option Exn → List Comp
  | .addService _ x, none => [x]
  | .addService _ _, some _ => []
  | .addModel _ _, _ => []
  | .delete _ _, _ => []

/-- The services for which `AddService` returned, in order. -/
def accepted (r : Reg) : List Op → List Comp
  | [] => []
  | o :: os => o.gains (step r o).2 ++ accepted (step r o).1 os

/-- The interface of each standard service, as numbered in `Comp.types`: `IService` is 0, `IModel`
is 1. -/
def interface : Kind → Nat
  | .logger => 2
  | .eventManager => 3
  | .linkRegistry => 4
  | .resolver => 5
  | .scheduler => 6
  | .timeKeeper => 7

/-- No component is deleted. -/
def Op.keeps : Op → Bool
  | .delete _ _ => false
  | _ => true

/-- The components in the two containers. -/
def Reg.services (r : Reg) : List Comp := ((r.comp.containers[0]?).map (·.comps)).getD []
def Reg.models (r : Reg) : List Comp := ((r.comp.containers[1]?).map (·.comps)).getD []

/-! ### Lemmas -/

/-- What stays true: the two containers with their bounds and types. -/
structure Shape (me : Nat) (r : Reg) : Prop where
  own : r.comp.self = me
  two : r.comp.containers = [⟨0, -1, 0, r.services⟩, ⟨0, -1, 1, r.models⟩]

theorem shape_init (self : Nat) : Shape self (Reg.init self) := ⟨rfl, rfl⟩

/-- All six registrations at once. -/
theorem register_all (x : Comp) (std : Kind → Option Comp) (k : Kind) :
    [Kind.logger, .eventManager, .linkRegistry, .resolver, .scheduler, .timeKeeper].foldl
      (register x) std k = (std k).or (if k.type ∈ x.types then some x else none) := by
  cases k <;> simp [register] <;> split <;> simp_all

/-- `AddComponent` of the two containers. -/
theorem add_spec {self : Nat} {r : Reg} (h : Shape self r) (i : Nat) (hi : i < 2) (x : Comp) :
    addComponent r.comp false i x =
      if i ∉ x.types then (r.comp, some .InvalidObjectType)
      else if (if i = 0 then r.services else r.models).length ≥ 18446744073709551615 then
        (r.comp, some .ContainerFull)
      else if (∃ y ∈ r.services ++ r.models, y.name = x.name) then (r.comp, some .DuplicateName)
      else if self ≠ x.parent then (r.comp, some .InvalidParent)
      else ({ r.comp with containers :=
        if i = 0 then [⟨0, -1, 0, r.services ++ [x]⟩, ⟨0, -1, 1, r.models⟩]
        else [⟨0, -1, 0, r.services⟩, ⟨0, -1, 1, r.models ++ [x]⟩] }, none) := by
  have hn : r.comp.nameTaken x.name = true ↔ ∃ y ∈ r.services ++ r.models, y.name = x.name := by
    unfold Composite.nameTaken
    rw [h.two]
    simp only [List.any_cons, List.any_nil, Bool.or_false, Bool.or_eq_true, Ctn.getByName,
      List.find?_isSome, decide_eq_true_eq, List.mem_append]
    constructor
    · rintro (⟨y, hy, he⟩ | ⟨y, hy, he⟩)
      · exact ⟨y, Or.inl hy, he⟩
      · exact ⟨y, Or.inr hy, he⟩
    · rintro ⟨y, hy | hy, he⟩
      · exact Or.inl ⟨y, hy, he⟩
      · exact Or.inr ⟨y, hy, he⟩
  have ht : Verif.Tree.toSize (-1) = 18446744073709551615 := by decide
  have hcheck : r.comp.check false x =
      if (∃ y ∈ r.services ++ r.models, y.name = x.name) then some .DuplicateName
      else if self ≠ x.parent then some .InvalidParent else none := by
    unfold Composite.check
    rw [h.own]
    by_cases hd : r.comp.nameTaken x.name = true
    · rw [if_pos hd, if_pos (hn.1 hd)]
    · rw [if_neg hd, if_neg (fun e => hd (hn.2 e))]
      simp
  have key : ∀ c : Ctn, r.comp.containers[i]? = some c → c.upper = -1 → c.ty = i →
      addComponent r.comp false i x =
      if i ∉ x.types then (r.comp, some .InvalidObjectType)
      else if c.comps.length ≥ 18446744073709551615 then (r.comp, some .ContainerFull)
      else if (∃ y ∈ r.services ++ r.models, y.name = x.name) then (r.comp, some .DuplicateName)
      else if self ≠ x.parent then (r.comp, some .InvalidParent)
      else ({ r.comp with containers :=
        r.comp.containers.set i { c with comps := c.comps ++ [x] } }, none) := by
    intro c hc hu hty
    unfold addComponent
    rw [hc]
    simp only [hu, hty, ht, hcheck]
    by_cases h1 : i ∉ x.types
    · rw [if_pos h1, if_pos h1]
    · rw [if_neg h1, if_neg h1]
      by_cases h2 : c.comps.length ≥ 18446744073709551615
      · rw [if_pos h2, if_pos h2]
      · rw [if_neg h2, if_neg h2]
        by_cases h3 : ∃ y ∈ r.services ++ r.models, y.name = x.name
        · rw [if_pos h3, if_pos h3]
        · rw [if_neg h3, if_neg h3]
          by_cases h4 : self ≠ x.parent
          · rw [if_pos h4, if_pos h4]
          · rw [if_neg h4, if_neg h4]
  match i, hi with
  | 0, _ =>
    rw [key ⟨0, -1, 0, r.services⟩ (by rw [h.two]; rfl) rfl rfl, h.two]
    rfl
  | 1, _ =>
    rw [key ⟨0, -1, 1, r.models⟩ (by rw [h.two]; rfl) rfl rfl, h.two]
    rfl

/-- When `AddService` accepts. -/
def Accepts (self : Nat) (r : Reg) (st : Verif.Sim.St) (x : Comp) : Prop :=
  (st = .building ∨ st = .connecting ∨ st = .standby) ∧ 0 ∈ x.types ∧ self = x.parent ∧
  (∀ y ∈ r.services ++ r.models, y.name ≠ x.name) ∧ r.services.length < 18446744073709551615

theorem open_iff (st : Verif.Sim.St) :
    open? st = true ↔ st = .building ∨ st = .connecting ∨ st = .standby := by
  cases st <;> simp [open?]

theorem addService_spec {self : Nat} {r : Reg} (h : Shape self r) (st : Verif.Sim.St) (x : Comp) :
    (Accepts self r st x ∧ (r.addService st x).2 = none ∧ Shape self (r.addService st x).1 ∧
      (r.addService st x).1.services = r.services ++ [x] ∧
      (r.addService st x).1.models = r.models ∧
      ∀ k, (r.addService st x).1.std k =
        (r.std k).or (if k.type ∈ x.types then some x else none)) ∨
    (¬ Accepts self r st x ∧ (r.addService st x).1 = r ∧ (r.addService st x).2 ≠ none) := by
  unfold Reg.addService
  by_cases ho : open? st = true
  · rw [if_pos ho, add_spec h 0 (by omega) x]
    have hst := (open_iff st).1 ho
    by_cases h1 : 0 ∉ x.types
    · rw [if_pos h1]
      exact Or.inr ⟨fun a => h1 a.2.1, rfl, by simp⟩
    rw [if_neg h1]
    by_cases h2 : (if (0 : Nat) = 0 then r.services else r.models).length ≥ 18446744073709551615
    · rw [if_pos h2]
      refine Or.inr ⟨fun a => ?_, rfl, by simp⟩
      have := a.2.2.2.2
      rw [if_pos rfl] at h2
      omega
    rw [if_neg h2]
    by_cases h3 : ∃ y ∈ r.services ++ r.models, y.name = x.name
    · rw [if_pos h3]
      obtain ⟨y, hy, he⟩ := h3
      exact Or.inr ⟨fun a => a.2.2.2.1 y hy he, rfl, by simp⟩
    rw [if_neg h3]
    by_cases h4 : self ≠ x.parent
    · rw [if_pos h4]
      exact Or.inr ⟨fun a => h4 a.2.2.1, rfl, by simp⟩
    rw [if_neg h4]
    refine Or.inl ⟨⟨hst, Classical.not_not.1 h1, Classical.not_not.1 h4,
      fun y hy he => h3 ⟨y, hy, he⟩, ?_⟩, rfl, ⟨h.own, rfl⟩, rfl, rfl,
      fun k => register_all x r.std k⟩
    rw [if_pos rfl] at h2
    omega
  · rw [if_neg ho]
    exact Or.inr ⟨fun a => ho ((open_iff st).2 a.1), rfl, by simp⟩

theorem addModel_spec {self : Nat} {r : Reg} (h : Shape self r) (st : Verif.Sim.St) (x : Comp) :
    Shape self (r.addModel st x).1 ∧ (r.addModel st x).1.std = r.std ∧
    (r.addModel st x).1.services = r.services ∧
    ((r.addModel st x).1.models = r.models ∨
      (r.addModel st x).1.models = r.models ++ [x] ∧
        ∀ y ∈ r.services ++ r.models, y.name ≠ x.name) ∧
    ((r.addModel st x).2 ≠ none → (r.addModel st x).1 = r) := by
  unfold Reg.addModel
  by_cases ho : open? st = true
  · rw [if_pos ho, add_spec h 1 (by omega) x]
    by_cases h1 : 1 ∉ x.types
    · rw [if_pos h1]; exact ⟨h, rfl, rfl, Or.inl rfl, fun _ => rfl⟩
    rw [if_neg h1]
    by_cases h2 : (if (1 : Nat) = 0 then r.services else r.models).length ≥ 18446744073709551615
    · rw [if_pos h2]; exact ⟨h, rfl, rfl, Or.inl rfl, fun _ => rfl⟩
    rw [if_neg h2]
    by_cases h3 : ∃ y ∈ r.services ++ r.models, y.name = x.name
    · rw [if_pos h3]; exact ⟨h, rfl, rfl, Or.inl rfl, fun _ => rfl⟩
    rw [if_neg h3]
    by_cases h4 : self ≠ x.parent
    · rw [if_pos h4]; exact ⟨h, rfl, rfl, Or.inl rfl, fun _ => rfl⟩
    rw [if_neg h4]
    exact ⟨⟨h.own, rfl⟩, rfl, rfl, Or.inr ⟨rfl, fun y hy he => h3 ⟨y, hy, he⟩⟩,
      fun hc => absurd rfl hc⟩
  · rw [if_neg ho]; exact ⟨h, rfl, rfl, Or.inl rfl, fun _ => rfl⟩

theorem delete_spec {self : Nat} {r : Reg} (h : Shape self r) (i : Nat) (x : Comp) :
    Shape self (r.delete i x).1 ∧ (r.delete i x).1.std = r.std ∧
    ((r.delete i x).2 ≠ none → (r.delete i x).1 = r) := by
  unfold Reg.delete deleteComponent
  rw [h.two]
  match i with
  | 0 =>
    simp only [List.getElem?_cons_zero]
    by_cases h1 : x ∉ r.services
    · rw [if_pos h1]; exact ⟨h, rfl, fun _ => rfl⟩
    rw [if_neg h1]
    by_cases h2 : r.services.length ≤ Verif.Tree.toSize 0
    · rw [if_pos h2]; exact ⟨h, rfl, fun _ => rfl⟩
    rw [if_neg h2]
    exact ⟨⟨h.own, rfl⟩, rfl, fun hc => absurd rfl hc⟩
  | 1 =>
    simp only [List.getElem?_cons_succ, List.getElem?_cons_zero]
    by_cases h1 : x ∉ r.models
    · rw [if_pos h1]; exact ⟨h, rfl, fun _ => rfl⟩
    rw [if_neg h1]
    by_cases h2 : r.models.length ≤ Verif.Tree.toSize 0
    · rw [if_pos h2]; exact ⟨h, rfl, fun _ => rfl⟩
    rw [if_neg h2]
    exact ⟨⟨h.own, rfl⟩, rfl, fun hc => absurd rfl hc⟩
  | i + 2 =>
    simp only [List.getElem?_cons_succ, List.getElem?_nil]
    exact ⟨⟨h.own, h.two⟩, trivial, fun hc => absurd rfl hc⟩

theorem step_shape {self : Nat} {r : Reg} (h : Shape self r) (o : Op) : Shape self (step r o).1 := by
  cases o with
  | addService st x =>
    rcases addService_spec h st x with ⟨_, _, hs, _⟩ | ⟨_, he, _⟩
    · exact hs
    · show Shape self (r.addService st x).1
      rw [he]; exact h
  | addModel st x => exact (addModel_spec h st x).1
  | delete i x => exact (delete_spec h i x).1

theorem run_shape {self : Nat} (os : List Op) : ∀ {r : Reg}, Shape self r → Shape self (run r os) := by
  induction os with
  | nil => intro r h; exact h
  | cons o os ih => intro r h; exact ih (step_shape h o)

theorem run_std {self : Nat} (os : List Op) : ∀ {r : Reg}, Shape self r → ∀ k,
    (run r os).std k = (r.std k).or ((accepted r os).find? fun x => decide (k.type ∈ x.types)) := by
  induction os with
  | nil => intro r h k; simp [run, accepted]
  | cons o os ih =>
    intro r h k
    have := ih (step_shape h o) k
    rw [show run r (o :: os) = run (step r o).1 os from rfl, this]
    cases o with
    | addService st x =>
      have hstep : step r (.addService st x) = r.addService st x := rfl
      rcases addService_spec h st x with ⟨_, hn, _, _, _, hk⟩ | ⟨_, he, hn⟩
      · rw [accepted, hstep, hn, hk k, Op.gains]
        cases hr : r.std k
        · by_cases hx : k.type ∈ x.types <;> simp [hx, List.find?_cons]
        · simp
      · rw [accepted, hstep, he]
        cases hr : (r.addService st x).2
        · exact absurd hr hn
        · rw [Op.gains, List.nil_append]
    | addModel st x =>
      have hstep : step r (.addModel st x) = r.addModel st x := rfl
      rw [accepted, hstep, (addModel_spec h st x).2.1, Op.gains, List.nil_append]
    | delete i x =>
      have hstep : step r (.delete i x) = r.delete i x := rfl
      rw [accepted, hstep, (delete_spec h i x).2.1, Op.gains, List.nil_append]

theorem run_kept {self : Nat} (os : List Op) : ∀ {r : Reg}, Shape self r →
    (r.services.map Comp.name).Nodup → os.all Op.keeps = true →
    (run r os).services = r.services ++ accepted r os ∧
    ((run r os).services.map Comp.name).Nodup := by
  induction os with
  | nil => intro r h hn _; simp [run, accepted, hn]
  | cons o os ih =>
    intro r h hn hk
    simp only [List.all_cons, Bool.and_eq_true] at hk
    rw [show run r (o :: os) = run (step r o).1 os from rfl]
    cases o with
    | addService st x =>
      have hstep : step r (.addService st x) = r.addService st x := rfl
      rcases addService_spec h st x with ⟨ha, hx, hs, he, _, _⟩ | ⟨_, he, hx⟩
      · have hn' : ((r.addService st x).1.services.map Comp.name).Nodup := by
          rw [he, List.map_append, List.nodup_append]
          refine ⟨hn, by simp, ?_⟩
          intro a hm b hb
          obtain ⟨y, hy, rfl⟩ := List.mem_map.1 hm
          simp only [List.map_cons, List.map_nil, List.mem_singleton] at hb
          rw [hb]
          exact ha.2.2.2.1 y (List.mem_append_left _ hy)
        obtain ⟨h1, h2⟩ := ih (r := (step r (.addService st x)).1) hs hn' hk.2
        refine ⟨?_, h2⟩
        rw [h1, accepted, hstep, hx, he, Op.gains, List.append_assoc]
      · obtain ⟨h1, h2⟩ := ih (r := (step r (.addService st x)).1) (by rw [hstep, he]; exact h)
          (by rw [hstep, he]; exact hn) hk.2
        refine ⟨?_, h2⟩
        rw [h1, accepted, hstep, he]
        cases hr : (r.addService st x).2
        · exact absurd hr hx
        · rw [Op.gains, List.nil_append]
    | addModel st x =>
      have hstep : step r (.addModel st x) = r.addModel st x := rfl
      have hm := addModel_spec h st x
      obtain ⟨h1, h2⟩ := ih (r := (step r (.addModel st x)).1) hm.1
        (by rw [hstep, hm.2.2.1]; exact hn) hk.2
      refine ⟨?_, h2⟩
      rw [h1, accepted, hstep, hm.2.2.1, Op.gains, List.nil_append]
    | delete i x => exact absurd hk.1 (by simp [Op.keeps])

theorem find_name {l : List Comp} (hn : (l.map Comp.name).Nodup) {x : Comp} (hx : x ∈ l) :
    l.find? (fun y => decide (y.name = x.name)) = some x := by
  induction l with
  | nil => cases hx
  | cons y l ih =>
    rw [List.map_cons, List.nodup_cons] at hn
    rw [List.find?_cons]
    rcases List.mem_cons.1 hx with rfl | hx
    · simp
    · have : y.name ≠ x.name := fun e => hn.1 (by rw [e]; exact List.mem_map.2 ⟨x, hx, rfl⟩)
      simp only [decide_eq_false this]
      exact ih hn.2 hx

/-! ### Properties -/

/-- C90. After any calls, the pointer to each standard service is the first service for which
`AddService` returned and that has the interface; a later one never replaces it. -/
theorem C90_first (self : Nat) (os : List Op) (k : Kind) :
    (run (Reg.init self) os).std k =
      (accepted (Reg.init self) os).find? fun x => decide (interface k ∈ x.types) := by
  rw [run_std os (shape_init self) k]
  cases k <;> rfl

/-- C90. `AddService` returns exactly if the simulator is building, connecting or in standby and the
object is a service that has the simulator as its parent and a name that no service and no model of
the simulator has (and there is room); then the service is the last one. Otherwise it raises, and
nothing is registered or changed. -/
theorem C90_accepts (self : Nat) (os : List Op) (st : Verif.Sim.St) (x : Comp) :
    let r := run (Reg.init self) os
    ((r.addService st x).2 = none ↔
      (st = .building ∨ st = .connecting ∨ st = .standby) ∧ 0 ∈ x.types ∧ self = x.parent ∧
      (∀ y ∈ r.services ++ r.models, y.name ≠ x.name) ∧
      r.services.length < 18446744073709551615) ∧
    ((r.addService st x).2 = none → (r.addService st x).1.services = r.services ++ [x] ∧
      (r.addService st x).1.models = r.models) ∧
    ((r.addService st x).2 ≠ none → (r.addService st x).1 = r) := by
  intro r
  have h : Shape self r := run_shape os (shape_init self)
  rcases addService_spec h st x with ⟨ha, hn, _, h1, h2, _⟩ | ⟨ha, he, hn⟩
  · exact ⟨⟨fun _ => ha, fun _ => hn⟩, fun _ => ⟨h1, h2⟩, fun hc => absurd hn hc⟩
  · exact ⟨⟨fun hc => absurd hc hn, fun hc => absurd hc ha⟩, fun hc => absurd hc hn, fun _ => he⟩

/-- C90, partial. As long as nobody deletes components, every accepted service is found under its
name, only those are found, and the pointers to standard services point to services that exist.
Missing: `DeleteComponent` (`C90_fails`); `GetService` of a null name is undefined. -/
theorem C90_partial (self : Nat) (os : List Op) (hk : os.all Op.keeps = true) :
    let r := run (Reg.init self) os
    (∀ n x, r.getService (some n) = some (some x) ↔
      x ∈ accepted (Reg.init self) os ∧ x.name = n) ∧
    (∀ k x, r.std k = some x → x ∈ r.services) := by
  intro r
  obtain ⟨hs, hn⟩ := run_kept os (shape_init self) (by simp [Reg.services, Reg.init]) hk
  have hsh : Shape self r := run_shape os (shape_init self)
  have hs : r.services = accepted (Reg.init self) os := by
    show (run (Reg.init self) os).services = _
    rw [hs]; rfl
  refine ⟨fun n x => ?_, fun k x hx => ?_⟩
  · have hg : r.getService (some n) = some (r.services.find? fun y => y.name = n) := by
      unfold Reg.getService
      rw [hsh.two]; rfl
    rw [hg, Option.some.injEq, ← hs]
    constructor
    · intro hf
      exact ⟨List.mem_of_find?_eq_some hf, by simpa using List.find?_some hf⟩
    · rintro ⟨hm, rfl⟩
      exact find_name hn hm
  · have := C90_first self os k
    rw [hs]
    exact List.mem_of_find?_eq_some (this.symm.trans hx)

/-! ### Cases -/

def demoLogger (id : Nat) (n : String) : Comp := ⟨id, n, 1, [0, 2]⟩
def demoBoth : Comp := ⟨12, "both", 1, [0, 2, 7]⟩

/-- Two loggers, a service that is a time keeper and a logger, a service of the same name as
another one, and one added while executing: the first logger stays, the last two are refused. -/
def demoOps : List Op :=
  [.addService .building (demoLogger 10 "log"), .addService .building (demoLogger 11 "other"),
   .addModel .building ⟨20, "model", 1, [1]⟩,
   .addService .standby demoBoth, .addService .standby (demoLogger 13 "model"),
   .addService .executing (demoLogger 14 "late")]

example : demoOps.all Op.keeps = true ∧
    (accepted (Reg.init 1) demoOps).map Comp.id = [10, 11, 12] ∧
    (run (Reg.init 1) demoOps).std .logger = some (demoLogger 10 "log") ∧
    (run (Reg.init 1) demoOps).std .timeKeeper = some demoBoth ∧
    (run (Reg.init 1) demoOps).std .scheduler = none ∧
    (run (Reg.init 1) demoOps).getService (some "other") = some (some (demoLogger 11 "other")) := by
  decide +kernel

/-- C90 fails: after `DeleteComponent` of the logger, `GetLogger` gives the deleted object, and a
logger added later is not registered. -/
theorem C90_fails : ∃ (os : List Op) (x y : Comp),
    accepted (Reg.init 1) os = [x, y] ∧
    (run (Reg.init 1) os).std .logger = some x ∧ (run (Reg.init 1) os).services = [y] ∧
    interface .logger ∈ y.types := by
  refine ⟨[.addService .building (demoLogger 10 "log"), .delete 0 (demoLogger 10 "log"),
    .addService .building (demoLogger 11 "log")], demoLogger 10 "log", demoLogger 11 "log", ?_⟩
  decide +kernel

end Verif.Sim.Service
