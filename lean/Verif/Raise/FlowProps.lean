import Verif.Raise.Flow
import Verif.Field.TreeProps

/-! Property C127: what the exceptions of data flow, of the state of the simulator, of libraries and
of the storage say. -/
namespace Verif.Raise.Flow
open Verif.Field (FTree World PWorld equivalent canConnect sameShape pairs wconnect pconnect link
  equivalent_spec canConnect_spec WRes PRes)
open Verif.Any (Fl)
open Verif.Sim.Bp (Bytes Fld Kind Obj)

/-! ### Specification -/

/-- The fields may be connected as far as their roles and types go: the source is an output, the
target is another field that is an input, and they have the same structure and the same types. -/
def Fit (w : World) (t u : FTree) : Prop :=
  w.output t = true ∧ w.input u = true ∧ u.is t = false ∧
    sameShape t u = true ∧ ∀ l ∈ pairs t u, w.agree l

/-- What an exception of `Connect` says: `already` tells what "already connected" means for the
kind of the source. -/
def ConnectTells (w : World) (already : Prop) (t u : FTree) : FEx → Prop
  | .alreadyConnected s x => s = t.key ∧ x = some u.key ∧ already
  | .invalidTarget s x => s = t.key ∧ x = some u.key ∧ ¬ Fit w t u
  | .ub => False

/-- The call ended by an exception, with the fields as they were. -/
def Refused (w : World) (r : WRes) : Prop := r = .raised w

/-- Reasons for which `LoadLibrary` refuses a library. -/
inductive Cause
  | missing | noInitialise | noFinalise | initialiseFailed
  deriving DecidableEq

/-- What is wrong with a library that could be looked at. -/
def Cause.holds (found hasInit hasFinal : Bool) (returned : Option Bool) : Cause → Prop
  | .missing => found = false
  | .noInitialise => found = true ∧ hasInit = false
  | .noFinalise => found = true ∧ hasInit = true ∧ hasFinal = false
  | .initialiseFailed => found = true ∧ hasInit = true ∧ hasFinal = true ∧ returned = some false

/-- How the exception shows the cause, for a library called `n`; `err` is what the operating system
says. -/
def Cause.shown (n err : String) : Cause → LEx → Prop
  | .missing, e => e = .notFound n err
  | .noInitialise, e => e = .invalid n ("Library '" ++ n ++
      "' does not provide function 'bool Initialize(::Smp::ISimulator *, " ++
      "::Smp::Publication::ITypeRegistry *)': " ++ err)
  | .noFinalise, e =>
      e = .invalid n ("Library '" ++ n ++ "' does not provide function 'bool Finalise()': " ++ err)
  | .initialiseFailed, e => e = .invalid n ("Initialise() of library '" ++ n ++ "' failed.")

/-! ### Lemmas -/

theorem fit_iff (w : World) (t u : FTree) :
    (!w.output t || !w.input u || u.is t || !equivalent w t u) = false ↔ Fit w t u := by
  unfold Fit
  rw [← equivalent_spec]
  cases w.output t <;> cases w.input u <;> cases u.is t <;> cases equivalent w t u <;> simp

/-- A step of reading `n` bytes with the exceptions it raises. -/
structure Good {α : Type} (n : Nat) (p : Bytes → Option (α × Bytes)) (w : Bytes → Option Why) :
    Prop where
  ok : ∀ b x r, p b = some (x, r) →
    w b = none ∧ b.length = n + r.length ∧ ∀ c, p (b ++ c) = some (x, r ++ c)
  done : ∀ b, w b = none → ∃ x r, p b = some (x, r)
  ended : ∀ b, w b = some .ended → b.length < n
  wrong : ∀ b, w b = some .wrongCheck → ∀ c, p (b ++ c) = none

theorem Good.pure {α : Type} (x : α) : Good 0 (fun b => some (x, b)) (fun _ => none) where
  ok := by intro b y r e; simp at e; obtain ⟨rfl, rfl⟩ := e; simp
  done := by intro b _; exact ⟨_, _, rfl⟩
  ended := by intro b e; simp at e
  wrong := by intro b e; simp at e

theorem Good.map {α β : Type} {n} {p : Bytes → Option (α × Bytes)} {w} (h : Good n p w)
    (g : α → β) : Good n (fun b => (p b).map (fun y => (g y.1, y.2))) w where
  ok := by
    intro b x r e
    simp only [Option.map_eq_some_iff] at e
    obtain ⟨⟨y, s⟩, e1, e2⟩ := e
    simp at e2; obtain ⟨rfl, rfl⟩ := e2
    refine ⟨(h.ok _ _ _ e1).1, (h.ok _ _ _ e1).2.1, fun c => ?_⟩
    rw [(h.ok _ _ _ e1).2.2 c]; rfl
  done := by
    intro b e
    obtain ⟨x, r, e1⟩ := h.done b e
    exact ⟨g x, r, by simp [e1]⟩
  ended := h.ended
  wrong := by intro b e c; simp [h.wrong b e c]

theorem Good.bind {α β : Type} {n m} {p : Bytes → Option (α × Bytes)} {w} (h : Good n p w)
    {q : α → Bytes → Option (β × Bytes)} {v : α → Bytes → Option Why}
    (k : ∀ x, Good m (q x) (v x)) :
    Good (n + m) (fun b => (p b).bind fun y => q y.1 y.2) (fun b => andThen (w b) (p b) v) where
  ok := by
    intro b x r e
    simp only [Option.bind_eq_some_iff] at e
    obtain ⟨⟨y, s⟩, e1, e2⟩ := e
    refine ⟨?_, ?_, fun c => ?_⟩
    · simp [andThen, (h.ok _ _ _ e1).1, e1, ((k y).ok _ _ _ e2).1]
    · have h1 := (h.ok _ _ _ e1).2.1
      have h2 := ((k y).ok _ _ _ e2).2.1
      dsimp only at h1 h2
      omega
    · simp only [(h.ok _ _ _ e1).2.2 c, Option.bind_some]
      exact ((k y).ok _ _ _ e2).2.2 c
  done := by
    intro b e
    unfold andThen at e
    cases ew : w b with
    | some _ => rw [ew] at e; simp at e
    | none =>
      obtain ⟨x, r, e1⟩ := h.done b ew
      simp only [ew, e1] at e
      obtain ⟨z, s, e2⟩ := (k x).done r e
      exact ⟨z, s, by simp [e1, e2]⟩
  ended := by
    intro b e
    unfold andThen at e
    cases ew : w b with
    | some y =>
      simp only [ew] at e; injection e with e; subst e
      exact Nat.lt_of_lt_of_le (h.ended b ew) (Nat.le_add_right _ _)
    | none =>
      obtain ⟨x, r, e1⟩ := h.done b ew
      simp only [ew, e1] at e
      have h1 := (h.ok _ _ _ e1).2.1
      have h2 := (k x).ended r e
      omega
  wrong := by
    intro b e c
    unfold andThen at e
    cases ew : w b with
    | some y =>
      simp only [ew] at e; injection e with e; subst e
      simp [h.wrong b ew c]
    | none =>
      obtain ⟨x, r, e1⟩ := h.done b ew
      simp only [ew, e1] at e
      simp [(h.ok _ _ _ e1).2.2 c, (k x).wrong r e c]

theorem Good.congr {α : Type} {n n'} {p p' : Bytes → Option (α × Bytes)} {w w'} (h : Good n p w)
    (e : ∀ b, p' b = p b) (e' : ∀ b, w' b = w b) (en : n' = n) : Good n' p' w' := by
  rw [show p' = p from funext e, show w' = w from funext e', en]; exact h

theorem good_read (n : Nat) : Good n (Verif.Sim.Bp.read n) (readWhy n) where
  ok := by
    intro b x r e
    unfold Verif.Sim.Bp.read at e ⊢
    unfold readWhy
    split at e
    · rename_i hl
      simp at e; obtain ⟨rfl, rfl⟩ := e
      refine ⟨by simp [hl], by simp; omega, fun c => ?_⟩
      rw [if_pos (by simp; omega), List.take_append_of_le_length hl,
        List.drop_append_of_le_length hl]
    · simp at e
  done := by
    intro b e
    unfold readWhy at e
    split at e
    · rename_i hl; exact ⟨_, _, by unfold Verif.Sim.Bp.read; rw [if_pos hl]⟩
    · simp at e
  ended := by
    intro b e
    unfold readWhy at e
    split at e
    · simp at e
    · omega
  wrong := by intro b e; unfold readWhy at e; split at e <;> simp at e

theorem good_check (k : Kind) :
    Good k.bytes.length (fun b => (Verif.Sim.Bp.check k b).map ((), ·)) (checkWhy k) where
  ok := by
    intro b x r e
    simp only [Option.map_eq_some_iff] at e
    obtain ⟨t, e1, e2⟩ := e
    simp at e2; subst e2
    unfold Verif.Sim.Bp.check at e1
    split at e1
    · rename_i h t' er
      split at e1
      · rename_i hk
        simp at e1; subst e1
        have h1 := ((good_read 4).ok _ _ _ er).2.1
        have h4 : k.bytes.length = 4 := by cases k <;> rfl
        refine ⟨by simp [checkWhy, er, hk], by rw [h4]; exact h1, fun c => ?_⟩
        have := ((good_read 4).ok _ _ _ er).2.2 c
        simp [Verif.Sim.Bp.check, this, hk]
      · simp at e1
    · simp at e1
  done := by
    intro b e
    unfold checkWhy at e
    split at e
    · rename_i h t er
      split at e
      · rename_i hk; exact ⟨(), t, by simp [Verif.Sim.Bp.check, er, hk]⟩
      · simp at e
    · simp at e
  ended := by
    intro b e
    have h4 : k.bytes.length = 4 := by cases k <;> rfl
    rw [h4]
    unfold checkWhy at e
    split at e
    · split at e <;> simp at e
    · rename_i er
      unfold Verif.Sim.Bp.read at er
      split at er
      · simp at er
      · omega
  wrong := by
    intro b e c
    unfold checkWhy at e
    split at e
    · rename_i h t er
      split at e
      · simp at e
      · rename_i hk
        have := ((good_read 4).ok _ _ _ er).2.2 c
        simp [Verif.Sim.Bp.check, this, hk]
    · simp at e

mutual
theorem good_fld : ∀ f : Fld, Good f.store.length f.restore (fldWhy f)
  | .simple st d => by
    cases st with
    | false =>
      exact (Good.pure (Fld.simple false d)).congr (fun b => by simp [Fld.restore])
        (fun b => by simp [fldWhy]) (by simp [Fld.store])
    | true =>
      exact ((good_read d.length).map (Fld.simple true)).congr (fun b => by simp [Fld.restore])
        (fun b => by simp [fldWhy]) (by simp [Fld.store])
  | .group st items => by
    cases st with
    | false =>
      exact (Good.pure (Fld.group false items)).congr (fun b => by simp [Fld.restore])
        (fun b => by simp [fldWhy]) (by simp [Fld.store])
    | true =>
      exact ((good_all items).map (Fld.group true)).congr (fun b => by simp [Fld.restore])
        (fun b => by simp [fldWhy]) (by simp [Fld.store])
theorem good_all : ∀ fs : List Fld,
    Good (Verif.Sim.Bp.storeAll fs).length (Verif.Sim.Bp.restoreAll fs) (allWhy fs)
  | [] => (Good.pure []).congr (fun b => by simp [Verif.Sim.Bp.restoreAll])
      (fun b => by simp [allWhy]) (by simp [Verif.Sim.Bp.storeAll])
  | f :: fs => by
    refine ((good_fld f).bind fun x => (good_all fs).map (x :: ·)).congr (fun b => ?_)
      (fun b => ?_) ?_
    · simp only [Verif.Sim.Bp.restoreAll, Option.bind_eq_bind, Option.pure_def]
      cases f.restore b with
      | none => rfl
      | some y =>
        simp only [Option.bind_some]
        cases Verif.Sim.Bp.restoreAll fs y.2 <;> rfl
    · simp [allWhy]
    · simp [Verif.Sim.Bp.storeAll]
end

theorem good_fields (fs : List Fld) :
    Good (fs.flatMap (fun x => Kind.FIELD.bytes ++ x.store)).length
      (Verif.Sim.Bp.restoreFields fs) (fieldsWhy fs) := by
  induction fs with
  | nil =>
    exact (Good.pure []).congr (fun b => by simp [Verif.Sim.Bp.restoreFields])
      (fun b => by simp [fieldsWhy]) (by simp)
  | cons f fs ih =>
    refine ((good_check .FIELD).bind fun _ => (good_fld f).bind fun x => ih.map (x :: ·)).congr
      (fun b => ?_) (fun b => ?_) ?_
    · simp only [Verif.Sim.Bp.restoreFields, Option.bind_eq_bind, Option.pure_def]
      cases Verif.Sim.Bp.check .FIELD b with
      | none => rfl
      | some b =>
        simp only [Option.bind_some, Option.map_some]
        cases f.restore b with
        | none => rfl
        | some y =>
          simp only [Option.bind_some]
          cases Verif.Sim.Bp.restoreFields fs y.2 <;> rfl
    · simp only [fieldsWhy]
    · simp only [List.flatMap_cons, List.length_append]; omega

theorem good_ctns (cs : List (List Obj)) :
    Good (cs.flatMap (fun x => Kind.CONTAINER.bytes ++ Verif.Sim.Bp.storeCtn x)).length
      (Verif.Sim.Bp.restoreCtns cs) (ctnsWhy cs) := by
  induction cs with
  | nil =>
    exact (Good.pure []).congr (fun b => by simp [Verif.Sim.Bp.restoreCtns])
      (fun b => by simp [ctnsWhy]) (by simp)
  | cons c cs ih =>
    refine ((good_check .CONTAINER).bind fun _ => ih.map (c :: ·)).congr
      (fun b => ?_) (fun b => ?_) ?_
    · simp only [Verif.Sim.Bp.restoreCtns, Option.bind_eq_bind, Option.pure_def]
      cases Verif.Sim.Bp.check .CONTAINER b with
      | none => rfl
      | some b =>
        simp only [Option.bind_some, Option.map_some, Verif.Sim.Bp.restoreCtn]
        cases Verif.Sim.Bp.restoreCtns cs b <;> rfl
    · simp only [ctnsWhy]
    · simp [Verif.Sim.Bp.storeCtn]

/-- The own data of an object, as a step of reading. -/
theorem good_persist (p : Option Bytes) :
    Good (match p with | some d => Kind.PERSIST.bytes ++ d | none => [] : Bytes).length
      (fun b => match p with
        | some d => (Verif.Sim.Bp.check .PERSIST b).bind fun b =>
            (Verif.Sim.Bp.read d.length b).map fun y => (some y.1, y.2)
        | none => some (none, b)) (persistWhy p) := by
  cases p with
  | none => exact (Good.pure none).congr (fun b => rfl) (fun b => rfl) rfl
  | some d =>
    refine ((good_check .PERSIST).bind fun _ => (good_read d.length).map some).congr
      (fun b => ?_) (fun b => rfl) ?_
    · dsimp only
      cases Verif.Sim.Bp.check .PERSIST b <;> rfl
    · simp

theorem good_component (f : Option (List Fld)) :
    Good (match f with
        | some fs => Kind.COMPONENT.bytes ++ fs.flatMap (fun x => Kind.FIELD.bytes ++ x.store)
        | none => [] : Bytes).length
      (fun b => match f with
        | some fs => (Verif.Sim.Bp.check .COMPONENT b).bind fun b =>
            (Verif.Sim.Bp.restoreFields fs b).map fun y => (some y.1, y.2)
        | none => some (none, b)) (componentWhy f) := by
  cases f with
  | none => exact (Good.pure none).congr (fun b => rfl) (fun b => rfl) rfl
  | some fs =>
    refine ((good_check .COMPONENT).bind fun _ => (good_fields fs).map some).congr
      (fun b => ?_) (fun b => rfl) ?_
    · dsimp only
      cases Verif.Sim.Bp.check .COMPONENT b <;> rfl
    · simp only [List.length_append]

theorem good_composite (c : Option (List (List Obj))) :
    Good (match c with
        | some cs => Kind.COMPOSITE.bytes ++
            cs.flatMap (fun x => Kind.CONTAINER.bytes ++ Verif.Sim.Bp.storeCtn x)
        | none => [] : Bytes).length
      (fun b => match c with
        | some cs => (Verif.Sim.Bp.check .COMPOSITE b).bind fun b =>
            (Verif.Sim.Bp.restoreCtns cs b).map fun y => (some y.1, y.2)
        | none => some (none, b)) (compositeWhy c) := by
  cases c with
  | none => exact (Good.pure none).congr (fun b => rfl) (fun b => rfl) rfl
  | some cs =>
    refine ((good_check .COMPOSITE).bind fun _ => (good_ctns cs).map some).congr
      (fun b => ?_) (fun b => rfl) ?_
    · dsimp only
      cases Verif.Sim.Bp.check .COMPOSITE b <;> rfl
    · simp only [List.length_append]

theorem andThen_congr {α β : Type} (w : Option Why) (p : Option (α × Bytes))
    (q : Option (β × Bytes)) (v : Bytes → Option Why) (h : p.map (·.2) = q.map (·.2)) :
    andThen w p (fun _ b => v b) = andThen w q (fun _ b => v b) := by
  unfold andThen
  cases w with
  | some _ => rfl
  | none =>
    cases p with
    | none => cases q with
      | none => rfl
      | some _ => simp at h
    | some y => cases q with
      | none => simp at h
      | some z => simp at h; simp [h]

theorem good_obj (o : Obj) : Good o.store.length o.restore (restoreWhy o) := by
  obtain ⟨p, f, c⟩ := o
  refine ((good_persist p).bind fun p' => (good_component f).bind fun f' =>
    (good_composite c).map fun c' => Obj.mk p' f' c').congr (fun b => ?_) (fun b => ?_) ?_
  · have hb : ∀ {α β γ : Type} (x : Option α) (g : α → Option β) (k : β → Option γ),
        (x.bind g).bind k = x.bind fun y => (g y).bind k := by
      intro α β γ x g k; cases x <;> rfl
    have hs : ∀ {α β : Type} (x : Option α) (g : α → β), x.map g = x.bind fun y => some (g y) := by
      intro α β x g; cases x <;> rfl
    cases p <;> cases f <;> cases c <;>
      simp only [Obj.restore, Option.bind_eq_bind, Option.pure_def, hb, hs, Option.bind_some]
  · simp only [restoreWhy]
    have h1 : (persistRest p b).map (·.2) = ((match p with
        | some d => (Verif.Sim.Bp.check .PERSIST b).bind fun b =>
            (Verif.Sim.Bp.read d.length b).map fun y => (some y.1, y.2)
        | none => some (none, b)) : Option (Option Bytes × Bytes)).map (·.2) := by
      cases p with
      | none => rfl
      | some d =>
        simp only [persistRest, Option.bind_eq_bind, Option.pure_def]
        cases Verif.Sim.Bp.check .PERSIST b with
        | none => rfl
        | some b => simp only [Option.bind_some]; cases Verif.Sim.Bp.read d.length b <;> rfl
    have h2 : ∀ b, (componentRest f b).map (·.2) = ((match f with
        | some fs => (Verif.Sim.Bp.check .COMPONENT b).bind fun b =>
            (Verif.Sim.Bp.restoreFields fs b).map fun y => (some y.1, y.2)
        | none => some (none, b)) : Option (Option (List Fld) × Bytes)).map (·.2) := by
      intro b
      cases f with
      | none => rfl
      | some fs =>
        simp only [componentRest, Option.bind_eq_bind, Option.pure_def]
        cases Verif.Sim.Bp.check .COMPONENT b with
        | none => rfl
        | some b => simp only [Option.bind_some]; cases Verif.Sim.Bp.restoreFields fs b <;> rfl
    rw [andThen_congr _ _ _ (fun b => andThen (componentWhy f b) (componentRest f b)
      fun _ b => compositeWhy c b) h1]
    congr 1
    funext _ b
    exact andThen_congr _ _ _ (fun b => compositeWhy c b) (h2 b)
  · cases p <;> cases f <;> cases c <;> simp only [Obj.store, List.length_append] <;> omega

/-! ### C127 -/

/-- C127: a breakpoint is refused exactly with an exception. The message that the input ended means
that the file is shorter than what the object writes; the message of a wrong check means that no file
that goes on like this is accepted. So a complete file is never said to have ended. -/
theorem C127_restore (o : Obj) (b : Bytes) :
    (o.restore b = none ↔ (restoreWhy o b).isSome = true) ∧
    (restoreWhy o b = some .ended → b.length < o.store.length) ∧
    (restoreWhy o b = some .wrongCheck → ∀ c, o.restore (b ++ c) = none) := by
  have h := good_obj o
  refine ⟨⟨fun e => ?_, fun e => ?_⟩, h.ended b, h.wrong b⟩
  · cases hw : restoreWhy o b with
    | some _ => rfl
    | none => obtain ⟨x, r, e'⟩ := h.done b hw; rw [e] at e'; cases e'
  · cases hr : o.restore b with
    | none => rfl
    | some y => rw [(h.ok b y.1 y.2 hr).1] at e; cases e

/-- C127: a file that was cut off, of the same object, is said to have ended. -/
theorem C127_truncated (o now : Obj) (h : o.same now) (b c : Bytes) (hc : c ≠ [])
    (e : o.store = b ++ c) : restoreWhy now b = some .ended := by
  have hg := good_obj now
  have hr := Verif.Sim.Bp.C30_partial o now h []
  rw [List.append_nil, e] at hr
  have hlen := (hg.ok _ _ _ hr).2.1
  cases hw : restoreWhy now b with
  | none =>
    obtain ⟨x, r, e'⟩ := hg.done b hw
    have h1 := (hg.ok _ _ _ e').2.1
    have h2 : 0 < c.length := List.length_pos_iff.2 hc
    simp only [List.length_append, List.length_nil] at hlen
    omega
  | some y =>
    cases y with
    | ended => rfl
    | wrongCheck => rw [hg.wrong b hw c] at hr; cases hr

/-- A model with a counter of its own, a structure of two bytes and an integer, and a container. -/
def shown : Obj :=
  .mk (some [7]) (some [.group true [.simple true [1, 2], .simple false [3]]]) (some [[]])

example : shown.same shown ∧ (∃ b c, c ≠ [] ∧ shown.store = b ++ c) ∧
    restoreWhy shown (shown.store.take 9) = some .ended ∧
    restoreWhy shown ([9, 0, 0, 0] ++ shown.store.drop 4) = some .wrongCheck ∧
    restoreWhy shown shown.store = none :=
  ⟨by simp [shown, Obj.same, Verif.Sim.Bp.sameAll, Fld.same],
    ⟨shown.store.take 9, shown.store.drop 9, by decide +kernel, (List.take_append_drop 9 _).symm⟩,
    by decide +kernel, by decide +kernel, by decide +kernel⟩

/-- C127 (part): `Connect` of a field of a component is refused with `InvalidTarget` exactly when the
roles or the types do not fit, and with `FieldAlreadyConnected` when they fit and one of the pairs of
corresponding fields is connected already or has a source that cannot push; the exception gives the
field and the target of the call, and nothing was changed. Missing: that `FieldAlreadyConnected` means
that the two fields are connected (`C127_connect_fails`). -/
theorem C127_connect_partial (narrow : Fl → Fl) (f : Nat) (w : World) (t u : FTree) :
    (connectRaises w t (some u) = none ↔
      Fit w t u ∧ ∀ l ∈ pairs t u, w.pushes l ∧ ¬ w.connected l) ∧
    (∀ e, connectRaises w t (some u) = some e → wconnect narrow f w t u = .raised w ∧
      ConnectTells w (Fit w t u ∧ ∃ l ∈ pairs t u, ¬ w.pushes l ∨ w.connected l) t u e) := by
  have hfit := fit_iff w t u
  have hcan := canConnect_spec w t u
  unfold connectRaises wconnect
  dsimp only
  cases hg : (!w.output t || !w.input u || u.is t || !equivalent w t u) with
  | true =>
    have hn : ¬ Fit w t u := fun h => by rw [← hfit, hg] at h; cases h
    refine ⟨⟨fun e => ?_, fun e => absurd e.1 hn⟩, fun e he => ?_⟩
    · simp at e
    · simp only [if_pos] at he
      injection he with he
      subst he
      exact ⟨rfl, rfl, rfl, hn⟩
  | false =>
    have hy : Fit w t u := hfit.1 hg
    have hs : sameShape t u = true := hy.2.2.2.1
    simp only [Bool.false_eq_true, if_false]
    cases hc : canConnect w t u with
    | true =>
      have h2 := (hcan.1 hc).2
      refine ⟨⟨fun _ => ⟨hy, h2⟩, fun _ => rfl⟩, fun e he => ?_⟩
      simp at he
    | false =>
      have hno : ¬ ∀ l ∈ pairs t u, w.pushes l ∧ ¬ w.connected l := fun h => by
        rw [hcan.2 ⟨hs, h⟩] at hc; cases hc
      refine ⟨⟨fun e => ?_, fun e => absurd e.2 hno⟩, fun e he => ?_⟩
      · simp at e
      · simp only [Bool.not_false, if_true] at he
        injection he with he
        subst he
        refine ⟨rfl, rfl, rfl, hy, ?_⟩
        refine Classical.byContradiction fun hx => hno fun l hl => ?_
        refine ⟨Classical.byContradiction fun hp => hx ⟨l, hl, Or.inl hp⟩,
          fun hk => hx ⟨l, hl, Or.inr hk⟩⟩

/-- C127: what a published output raises is exact: `FieldAlreadyConnected` when the target is among
its input fields, and otherwise `InvalidTarget` when the roles or the types do not fit; the exception
gives the field and the target of the call, and nothing was changed. -/
theorem C127_published (narrow : Fl → Fl) (f : Nat) (p : PWorld) (t u : FTree) :
    (pconnectRaises p t (some u) = none ↔
      (∀ x ∈ p.outs t.key, x.key ≠ u.key) ∧ Fit p.w t u) ∧
    (∀ e, pconnectRaises p t (some u) = some e → pconnect narrow f p t u = .raised p ∧
      ConnectTells p.w (∃ x ∈ p.outs t.key, x.key = u.key) t u e) ∧
    ((∃ x ∈ p.outs t.key, x.key = u.key) →
      ∃ s x, pconnectRaises p t (some u) = some (.alreadyConnected s x)) := by
  have hfit := fit_iff p.w t u
  unfold pconnectRaises pconnect
  dsimp only
  cases ha : (p.outs t.key).any (fun x => x.key == u.key) with
  | true =>
    have hx : ∃ x ∈ p.outs t.key, x.key = u.key := by simpa using ha
    refine ⟨⟨fun e => ?_, fun e => ?_⟩, fun e he => ?_, fun _ => ⟨_, _, rfl⟩⟩
    · simp at e
    · obtain ⟨x, h1, h2⟩ := hx
      exact absurd h2 (e.1 x h1)
    · simp only [if_true] at he
      injection he with he
      subst he
      exact ⟨rfl, rfl, rfl, hx⟩
  | false =>
    have hx : ∀ x ∈ p.outs t.key, x.key ≠ u.key := by simpa using ha
    simp only [Bool.false_eq_true, if_false]
    cases hg : (!p.w.output t || !p.w.input u || u.is t || !equivalent p.w t u) with
    | true =>
      have hn : ¬ Fit p.w t u := fun h => by rw [← hfit, hg] at h; cases h
      refine ⟨⟨fun e => ?_, fun e => absurd e.2 hn⟩, fun e he => ?_, fun ⟨x, h1, h2⟩ =>
        absurd h2 (hx x h1)⟩
      · simp at e
      · simp only [if_true] at he
        injection he with he
        subst he
        exact ⟨rfl, rfl, rfl, hn⟩
    | false =>
      refine ⟨⟨fun _ => ⟨hx, hfit.1 hg⟩, fun _ => rfl⟩, fun e he => ?_, fun ⟨x, h1, h2⟩ =>
        absurd h2 (hx x h1)⟩
      simp at he

/-- Structures of two fields: number 0 is an output, number 10 and 20 are inputs; the first field of
number 0 is connected to the first one of number 10, and its second field cannot push when `mute`. -/
def flow (mute : Bool) : World :=
  { net := fun i => ⟨.Int32, 0, 10 ≤ i, i < 10, i == 0 || (i == 1 && !mute), false, none, .int i,
      false, if i = 0 then [10] else []⟩
    arrs := fun _ => ⟨.published, .Int32, none, false, false, false, [], []⟩
    nin := fun i => 10 ≤ i, nout := fun i => i < 10, nflow := fun i => i < 10
    ntargets := fun _ => [] }

/-- The structures. -/
def pair (k : Nat) : FTree := .node true k [.simple k, .simple (k + 1)]

example : connectRaises (flow false) (pair 0) (some (pair 20)) = none ∧
    connectRaises (flow false) (pair 0) (some (pair 0)) = some (.invalidTarget (2, 0) (some (2, 0))) ∧
    (∃ e, connectRaises (flow false) (pair 0) (some (pair 10)) = some e) ∧
    (∃ e, pconnectRaises ⟨flow false, fun _ => [pair 10], fun _ _ => true⟩ (pair 0)
      (some (pair 10)) = some e) :=
  ⟨by decide, by decide, ⟨_, rfl⟩, ⟨_, rfl⟩⟩

/-- C127 is false of `FieldAlreadyConnected` of the fields of a component: it is raised, and says that
the two structures are connected, when only one of their fields is connected to the corresponding one,
and when a field inside cannot push. `InvalidTarget`, which says that the types are not compatible, is
raised for two fields of the same type when the target is not an input. -/
theorem C127_connect_fails :
    (connectRaises (flow false) (pair 0) (some (pair 10)) =
        some (.alreadyConnected (2, 0) (some (2, 10))) ∧
      10 ∉ (flow false).ntargets 0 ∧ 11 ∉ ((flow false).net 1).targets) ∧
    (connectRaises (flow true) (pair 0) (some (pair 20)) =
        some (.alreadyConnected (2, 0) (some (2, 20))) ∧
      ∀ l ∈ pairs (pair 0) (pair 20), ¬ (flow true).connected l) ∧
    (connectRaises (flow false) (pair 0) (some (pair 2)) =
        some (.invalidTarget (2, 0) (some (2, 2))) ∧
      equivalent (flow false) (pair 0) (pair 2) = true) := by
  refine ⟨⟨by decide, by decide, by decide⟩, ⟨by decide, ?_⟩, by decide, by decide⟩
  intro l hl
  have : l = .node 0 20 ∨ l = .simple 0 20 ∨ l = .simple 1 21 := by
    simpa [pairs, Verif.Field.pairsList, pair] using hl
  rcases this with rfl | rfl | rfl <;> simp [World.connected, flow]

/-- C127: a null target is undefined behaviour, except that a field that is no output says
`InvalidTarget` first. -/
theorem C127_null (w : World) (p : PWorld) (t : FTree) :
    (connectRaises w t none = if w.output t then some .ub else some (.invalidTarget t.key none)) ∧
    (pconnectRaises p t none =
      if p.w.output t then some .ub else some (.invalidTarget t.key none)) := by
  unfold connectRaises pconnectRaises
  cases w.output t <;> cases p.w.output t <;> simp

/-- C127: `AddModel` and `AddService` raise `InvalidSimulatorState` exactly when the simulator is
neither building, connecting nor in standby, and the exception gives the state it is in. -/
theorem C127_state (r : Verif.Sim.Service.Reg) (st : Verif.Sim.St) (x : Verif.Tree.Comp) :
    (stateRaises st = none ↔ st = .building ∨ st = .connecting ∨ st = .standby) ∧
    (∀ s, stateRaises st = some s → s = st) ∧
    ((stateRaises st).isSome = true ↔ (r.addModel st x).2 = some .invalidState) ∧
    ((stateRaises st).isSome = true ↔ (r.addService st x).2 = some .invalidState) ∧
    ((stateRaises st).isSome = true → (r.addModel st x).1 = r ∧ (r.addService st x).1 = r) := by
  have hm : (r.addModel st x).2 = some .invalidState ↔ Verif.Sim.Service.open? st = false := by
    unfold Verif.Sim.Service.Reg.addModel
    cases Verif.Sim.Service.open? st with
    | false => simp
    | true =>
      rcases Verif.Tree.addComponent r.comp false 1 x with ⟨c, e⟩
      cases e <;> simp
  have hs : (r.addService st x).2 = some .invalidState ↔ Verif.Sim.Service.open? st = false := by
    unfold Verif.Sim.Service.Reg.addService
    cases Verif.Sim.Service.open? st with
    | false => simp
    | true =>
      rcases Verif.Tree.addComponent r.comp false 0 x with ⟨c, e⟩
      cases e <;> simp
  rw [hm, hs]
  refine ⟨?_, ?_, ?_, ?_, fun h => ?_⟩
  · cases st <;> simp [stateRaises]
  · cases st <;> simp [stateRaises]
  · cases st <;> simp [stateRaises, Verif.Sim.Service.open?]
  · cases st <;> simp [stateRaises, Verif.Sim.Service.open?]
  · have : Verif.Sim.Service.open? st = false := by
      revert h; cases st <;> simp [stateRaises, Verif.Sim.Service.open?]
    simp [Verif.Sim.Service.Reg.addModel, Verif.Sim.Service.Reg.addService, this]

example : stateRaises .executing = some .executing ∧ stateRaises .standby = none := ⟨rfl, rfl⟩

/-- C127: `LoadLibrary` of a named library itself raises exactly when something is wrong with the
library, and the exception gives the name of the call and shows what is wrong. -/
theorem C127_library (logger : Bool) (n error : String) (found hasInit hasFinal : Bool)
    (returned : Option Bool) :
    (∀ e, loadRaises logger (some n) found hasInit hasFinal returned error = some e →
      ∃ c : Cause, c.holds found hasInit hasFinal returned ∧ c.shown n error e) ∧
    (∀ c : Cause, c.holds found hasInit hasFinal returned →
      ∃ e, loadRaises logger (some n) found hasInit hasFinal returned error = some e ∧
        c.shown n error e) := by
  constructor
  · intro e h
    unfold loadRaises at h
    dsimp only at h
    cases found with
    | false =>
      injection h with h; subst h
      exact ⟨.missing, rfl, rfl⟩
    | true =>
      cases hasInit with
      | false =>
        injection h with h; subst h
        exact ⟨.noInitialise, ⟨rfl, rfl⟩, rfl⟩
      | true =>
        cases hasFinal with
        | false =>
          injection h with h; subst h
          exact ⟨.noFinalise, ⟨rfl, rfl, rfl⟩, rfl⟩
        | true =>
          cases returned with
          | none => simp at h
          | some r =>
            cases r with
            | true => simp at h
            | false =>
              injection h with h; subst h
              exact ⟨.initialiseFailed, ⟨rfl, rfl, rfl, rfl⟩, rfl⟩
  · intro c h
    cases c with
    | missing =>
      have h : found = false := h
      subst h
      exact ⟨_, rfl, rfl⟩
    | noInitialise =>
      obtain ⟨rfl, rfl⟩ := h
      exact ⟨_, rfl, rfl⟩
    | noFinalise =>
      obtain ⟨rfl, rfl, rfl⟩ := h
      exact ⟨_, rfl, rfl⟩
    | initialiseFailed =>
      obtain ⟨rfl, rfl, rfl, rfl⟩ := h
      exact ⟨_, rfl, rfl⟩

/-- C127: what an exception of `LoadLibrary` shows is one cause only. -/
theorem C127_cause (n err1 err2 : String) (e : LEx) (c d : Cause) (hc : c.shown n err1 e)
    (hd : d.shown n err2 e) : c = d := by
  have key : ∀ e1 e2, Flow.noInitialise n e1 ≠ Flow.noFinalise n e2 := by
    intro e1 e2 h
    unfold Flow.noInitialise Flow.noFinalise at h
    have h := congrArg String.toList h
    simp only [String.toList_append, List.append_assoc] at h
    have h := List.append_cancel_left (List.append_cancel_left h)
    have h := congrArg (fun l => l[35]?) h
    simp at h
  have l1 : "Library '".toList = 'L' :: "ibrary '".toList := by decide +kernel
  have l2 : "Initialise() of library '".toList = 'I' :: "nitialise() of library '".toList := by
    decide +kernel
  have i1 : ∀ e1, Flow.noInitialise n e1 ≠ Flow.initialiseFailed n := by
    intro e1 h
    unfold Flow.initialiseFailed Flow.noInitialise at h
    have h := congrArg String.toList h
    simp only [String.toList_append, List.append_assoc, l1, l2, List.cons_append] at h
    injection h with h
    exact absurd h (by decide)
  have i2 : ∀ e1, Flow.noFinalise n e1 ≠ Flow.initialiseFailed n := by
    intro e1 h
    unfold Flow.initialiseFailed Flow.noFinalise at h
    have h := congrArg String.toList h
    simp only [String.toList_append, List.append_assoc, l1, l2, List.cons_append] at h
    injection h with h
    exact absurd h (by decide)
  cases c <;> cases d <;> simp only [Cause.shown] at hc hd <;> subst hc
  case missing.missing | noInitialise.noInitialise | noFinalise.noFinalise |
    initialiseFailed.initialiseFailed => rfl
  case missing.noInitialise | missing.noFinalise | missing.initialiseFailed |
    noInitialise.missing | noFinalise.missing | initialiseFailed.missing => cases hd
  case noInitialise.noFinalise => injection hd with _ h; exact absurd h (key _ _)
  case noFinalise.noInitialise => injection hd with _ h; exact absurd h.symm (key _ _)
  case noInitialise.initialiseFailed => injection hd with _ h; exact absurd h (i1 _)
  case noFinalise.initialiseFailed => injection hd with _ h; exact absurd h (i2 _)
  case initialiseFailed.noInitialise => injection hd with _ h; exact absurd h.symm (i1 _)
  case initialiseFailed.noFinalise => injection hd with _ h; exact absurd h.symm (i2 _)

example : ∃ e, loadRaises true (some "model") true true true (some false) "" = some e ∧
    Cause.initialiseFailed.shown "model" "" e := ⟨_, rfl, rfl⟩

/-- C127: `LoadLibrary` ends with an exception exactly when it raises one of these, or an exception
leaves `Initialise`: its own, or that of a library which it loads. -/
theorem C127_load (s : Verif.Sim.Library.St) (logger : Bool) (n error : String) (id : Nat)
    (found hasInit hasFinal : Bool) (loads : List (Bool × Verif.Sim.Library.Lib))
    (result : Option Bool) (unloads : List Verif.Sim.Library.Lib) :
    let inner := (Verif.Sim.Library.loadAll (s.emit (.init id)) loads).2
    let returned := if inner then none else result
    (Verif.Sim.Library.load s (.mk id found hasInit hasFinal loads result unloads)).2 = true ↔
      (loadRaises logger (some n) found hasInit hasFinal returned error).isSome = true ∨
      (found = true ∧ hasInit = true ∧ hasFinal = true ∧ returned = none) := by
  dsimp only
  cases found <;> cases hasInit <;> cases hasFinal <;>
    simp [Verif.Sim.Library.load, loadRaises, Verif.Sim.Library.ending]
  cases (Verif.Sim.Library.loadAll (s.emit (.init id)) loads).2 with
  | true => simp
  | false =>
    cases result with
    | none => simp
    | some r => cases r <;> simp

/-- C127: a null name is said not to be found, under the name `<null>`, by a simulator without a
logger; with a logger it is undefined behaviour. -/
theorem C127_null_library (found hasInit hasFinal : Bool) (returned : Option Bool) (error : String) :
    loadRaises false none found hasInit hasFinal returned error = some (.notFound "<null>" error) ∧
    loadRaises true none found hasInit hasFinal returned error = some .ub := ⟨rfl, rfl⟩

theorem run_stuck : ∀ (l : List (Bool × Nat)) (s : In), (s.bad = true ∨ s.fail = true) →
    (s.eof = true → s.fail = true) →
    ((s.run l).bad = true ∨ (s.run l).fail = true) ∧ (s.run l).bad = s.bad ∧
      ((s.run l).eof = true → (s.run l).fail = true)
  | [], s, h, he => ⟨h, rfl, he⟩
  | (b, n) :: l, s, h, he => by
    have hr : (s.restore b n).1 = { s with fail := true } := by
      rcases h with h | h <;> simp [In.restore, In.read, h]
    have := run_stuck l { s with fail := true } (Or.inr rfl) (fun _ => rfl)
    simp only [In.run, hr]
    exact this

theorem run_spec : ∀ (l : List (Bool × Nat)) (file : List UInt8),
    ((l.any (·.1) || decide (file.length < (l.map (·.2)).sum)) = false →
      In.run ⟨file, false, false, false⟩ l = ⟨file.drop (l.map (·.2)).sum, false, false, false⟩) ∧
    ((l.any (·.1) || decide (file.length < (l.map (·.2)).sum)) = true →
      (In.run ⟨file, false, false, false⟩ l).bad = true ∨
        (In.run ⟨file, false, false, false⟩ l).fail = true) ∧
    ((In.run ⟨file, false, false, false⟩ l).eof = true →
      (In.run ⟨file, false, false, false⟩ l).fail = true) ∧
    (l.any (·.1) = false → (In.run ⟨file, false, false, false⟩ l).bad = false)
  | [], file => by simp [In.run]
  | (true, n) :: l, file => by
    have hr : (In.restore ⟨file, false, false, false⟩ true n).1 = ⟨file, true, false, false⟩ := by
      simp [In.restore, In.read]
    have := run_stuck l ⟨file, true, false, false⟩ (Or.inl rfl) (by simp)
    simp only [In.run, hr]
    exact ⟨by simp, fun _ => this.1, this.2.2, by simp⟩
  | (false, n) :: l, file => by
    by_cases hn : n ≤ file.length
    · have hr : (In.restore ⟨file, false, false, false⟩ false n).1 =
          ⟨file.drop n, false, false, false⟩ := by simp [In.restore, In.read, hn]
      have ih := run_spec l (file.drop n)
      have hd : decide (file.length < (((false, n) :: l).map (·.2)).sum) =
          decide ((file.drop n).length < (l.map (·.2)).sum) := by
        simp only [List.map_cons, List.sum_cons, List.length_drop]
        exact decide_eq_decide.2 (by omega)
      simp only [In.run, hr, List.any_cons, Bool.false_or, hd]
      refine ⟨fun h => ?_, ih.2.1, ih.2.2.1, ih.2.2.2⟩
      rw [ih.1 h]
      simp [List.drop_drop]
    · have hr : (In.restore ⟨file, false, false, false⟩ false n).1 = ⟨[], false, true, true⟩ := by
        simp [In.restore, In.read, hn]
      have := run_stuck l ⟨[], false, true, true⟩ (Or.inr rfl) (fun _ => rfl)
      have hd : file.length < (((false, n) :: l).map (·.2)).sum := by
        simp only [List.map_cons, List.sum_cons]; omega
      simp only [In.run, hr, hd]
      exact ⟨by simp, fun _ => this.1, this.2.2, fun _ => this.2.1⟩

/-- C127: reading from a storage that was opened: the data is there as long as no exception was
raised; a call raises exactly when the device fails, or too few bytes are left, or a call before
raised. -/
theorem C127_read (file : List UInt8) (before : List (Bool × Nat)) (broken : Bool) (n : Nat) :
    let s := In.run ⟨file, false, false, false⟩ before
    let failed := before.any (·.1) || decide (file.length < (before.map (·.2)).sum)
    (failed = false → s = ⟨file.drop (before.map (·.2)).sum, false, false, false⟩) ∧
    ((s.restore broken n).2 = none ↔
      failed = false ∧ broken = false ∧ (before.map (·.2)).sum + n ≤ file.length) := by
  dsimp only
  have h := run_spec before file
  refine ⟨h.1, ?_⟩
  cases hf : (before.any (·.1) || decide (file.length < (before.map (·.2)).sum)) with
  | true =>
    rcases h.2.1 hf with e | e
    · simp [In.restore, In.read, e]
    · simp only [In.restore, In.read, e, Bool.or_true, Bool.true_or, if_true]
      split <;> simp
  | false =>
    rw [h.1 hf]
    have hl : (before.map (·.2)).sum ≤ file.length := by
      simp only [Bool.or_eq_false_iff, decide_eq_false_iff_not, Nat.not_lt] at hf
      exact hf.2
    cases broken with
    | true => simp [In.restore, In.read]
    | false =>
      by_cases hn : n ≤ (file.drop (before.map (·.2)).sum).length
      · have hn' := hn
        rw [List.length_drop] at hn'
        simp only [In.restore, In.read, hn]
        simp
        omega
      · have hn' := hn
        rw [List.length_drop] at hn'
        simp only [In.restore, In.read, hn]
        simp
        omega

example : ((In.run ⟨[1, 2, 3], false, false, false⟩ [(false, 2)]).restore false 1).2 = none ∧
    ((In.run ⟨[1, 2, 3], false, false, false⟩ [(false, 2)]).restore false 2).2 = some .logical ∧
    ((In.run ⟨[1, 2, 3], false, false, false⟩ [(true, 2)]).restore false 1).2 = some .read := by
  decide

/-- C127 is false of the end of the file: a storage that ends too early is said to have a "logical
error"; whatever is read, no exception says that the end of the file was reached. -/
theorem C127_end_fails (file : List UInt8) (before : List (Bool × Nat)) (broken : Bool) (n : Nat) :
    let s := In.run ⟨file, false, false, false⟩ before
    (s.restore broken n).2 ≠ some .endOfFile ∧
    (before.any (·.1) = false → broken = false → (s.restore broken n).2 ≠ none →
      (s.restore broken n).2 = some .logical) := by
  dsimp only
  have h := run_spec before file
  revert h
  generalize In.run ⟨file, false, false, false⟩ before = s
  intro h
  obtain ⟨left, bad, fail, eof⟩ := s
  have h3 := h.2.2.1
  have h4 := h.2.2.2
  dsimp only at h3 h4
  by_cases hn : n ≤ left.length <;> cases bad <;> cases fail <;> cases eof <;> cases broken <;>
    simp [In.restore, In.read, hn] at h3 h4 ⊢ <;> simp_all

/-- C127 is false of opening a storage: when the directory cannot be made, what is raised is not
`CannotStore`, and not an exception of the standard at all. When the directory is there or can be
made, `CannotStore` is raised exactly when the file cannot be opened. -/
theorem C127_open_fails (opens : Bool) :
    openRaises false false opens = some .filesystem ∧
    ∀ dir mkdir, (dir = true ∨ mkdir = true) →
      (openRaises dir mkdir opens = some .cannotStore ↔ opens = false) ∧
      (openRaises dir mkdir opens = none ↔ opens = true) := by
  refine ⟨rfl, ?_⟩
  intro dir mkdir h
  cases dir <;> cases mkdir <;> cases opens <;> simp_all [openRaises]

end Verif.Raise.Flow
