import Verif.Python.Oper

/-
The specification of C130 and the lemmas of its proofs. The specification is `value`, the value an
object stands for, and `meaning`, the value of an expression in which every name of a field or property
stands for its current value.
-/
namespace Verif.Python.Oper

open Verif.Any Verif.Python.Value

/-- The value that an object stands for: itself, or the current value of the field or property. -/
def value (S : Sim) : Obj → Except Err Py
  | .val p => .ok p
  | .handle h => read S h

/-- The comparisons of plain values as Python has them: `a < b` is `b > a` and so on, and `a != b` is
the negation of `a == b`. -/
structure Mirror (P : Prim) : Prop where
  eq : ∀ a b, P.cmp .eq b a = P.cmp .eq a b
  lt : ∀ a b, P.cmp .gt b a = P.cmp .lt a b
  le : ∀ a b, P.cmp .ge b a = P.cmp .le a b
  ne : ∀ a b, P.cmp .ne a b = (P.cmp .eq a b).map (! ·)

/-- The value of an expression in which every field and property stands for its current value. -/
def meaning (P : Prim) (env : Nat → Obj) (S : Sim) : Expr → Except Err Py
  | .lit p => .ok p
  | .var x => value S (env x)
  | .attr h => value S (.handle h)
  | .bin op a b => do P.bin op (← meaning P env S a) (← meaning P env S b)
  | .cmp c a b => do return .bool (← P.cmp c (← meaning P env S a) (← meaning P env S b))
  | .un u a => do P.un u (← meaning P env S a)
  | .not a => do return .bool !(pyTruth (← meaning P env S a))
  | .and a b => do
    let v ← meaning P env S a
    if pyTruth v then meaning P env S b else return v
  | .or a b => do
    let v ← meaning P env S a
    if pyTruth v then return v else meaning P env S b

/-- Only operators that the binding defines, and no `+e`. -/
def Supported : Expr → Prop
  | .lit _ => True
  | .var _ => True
  | .attr _ => True
  | .bin op a b => op ∉ [Bin.floordiv, .mod, .pow] ∧ Supported a ∧ Supported b
  | .cmp _ a b => Supported a ∧ Supported b
  | .un u a => u ≠ .pos ∧ Supported a
  | .not a => Supported a
  | .and a b => Supported a ∧ Supported b
  | .or a b => Supported a ∧ Supported b

/-- No `not`, `and`, `or`. -/
def NoLogic : Expr → Prop
  | .lit _ => True
  | .var _ => True
  | .attr _ => True
  | .bin _ a b => NoLogic a ∧ NoLogic b
  | .cmp _ a b => NoLogic a ∧ NoLogic b
  | .un _ a => NoLogic a
  | .not _ => False
  | .and _ _ => False
  | .or _ _ => False

/-- No field or property holds a character or a text. -/
def NoText (S : Sim) : Prop := ∀ h s, read S h ≠ .ok (.str s)

/-- The member that an assignment to a field or property changes. -/
def target (S : Sim) : Handle → Nat
  | .field i => i
  | .prop i => (S.props i).cell

/-! ### Helper lemmas -/

theorem bound_iff (op : Bin) : op.bound = true ↔ op ∉ [Bin.floordiv, .mod, .pow] := by
  cases op <;> decide

theorem bind_ok {α β : Type} {x : Except Err α} {f : α → Except Err β} {b : β} :
    x.bind f = .ok b ↔ ∃ a, x = .ok a ∧ f a = .ok b := by
  cases x with
  | error e => simp [Except.bind]
  | ok a => simp [Except.bind]

theorem map_ok {α β : Type} {x : Except Err α} {f : α → β} {b : β} :
    x.map f = .ok b ↔ ∃ a, x = .ok a ∧ f a = b := by
  cases x with
  | error e => simp [Except.map]
  | ok a => simp [Except.map]

theorem Mirror.swap {P : Prim} (M : Mirror P) (c : Cmp) (a b : Py) :
    P.cmp c.swap b a = P.cmp c a b := by
  cases c
  · exact M.eq a b
  · show P.cmp .ne b a = _
    rw [M.ne, M.ne, M.eq]
  · exact M.lt a b
  · exact M.le a b
  · exact (M.lt b a).symm
  · exact (M.le b a).symm

theorem swap_swap (c : Cmp) : c.swap.swap = c := by cases c <;> rfl

theorem lift_ok {α : Type} {r : Res α} {a : α} (h : lift r = .ok a) : r = .ok a := by
  cases r <;> simp [lift] at h
  rw [h]

theorem toPy_plain (a : Any) (p : Py) (h : toPy a = .ok p) : p ≠ .other ∧ ∀ b, p ≠ .field b := by
  unfold toPy at h
  split at h <;> (try unfold toPy.int at h) <;> (repeat' split at h) <;>
    simp at h <;> subst h <;> simp

theorem read_plain (S : Sim) (h : Handle) (p : Py) (e : read S h = .ok p) :
    p ≠ .other ∧ ∀ b, p ≠ .field b := by
  cases h with
  | field i => exact toPy_plain _ _ (lift_ok e)
  | prop i =>
    simp only [read] at e
    split at e
    · cases e
    · exact toPy_plain _ _ (lift_ok e)

/-- The result of an operator in terms of the two values. -/
theorem binop_eq (P : Prim) (first : Handle → Handle → Bool) (S : Sim) (op : Bin)
    (hb : op.bound = true) (l r : Obj) (a b : Py) (hl : value S l = .ok a) (hr : value S r = .ok b) :
    binop P first S op l r = P.bin op a b := by
  cases l with
  | val p =>
    cases hl
    cases r with
    | val q => cases hr; rfl
    | handle g =>
      have hr : read S g = .ok b := hr
      simp [binop, binLeft, hb, hr, Except.bind]
  | handle h =>
    have hl : read S h = .ok a := hl
    cases r with
    | val q => cases hr; simp [binop, binRight, hb, hl, Except.bind]
    | handle g =>
      have hr : read S g = .ok b := hr
      cases hf : first h g <;> simp [binop, binLeft, binRight, hb, hl, hr, hf, Except.bind]

theorem cmpMethod_eq (P : Prim) (M : Mirror P) (S : Sim) (c : Cmp) (h : Handle) (r : Obj) (a b : Py)
    (hl : read S h = .ok a) (hr : value S r = .ok b) : cmpMethod P S c h r = P.cmp c a b := by
  have key : ∀ d : Cmp, cmpLeft P S d a r = P.cmp d a b := by
    intro d
    cases r with
    | val q => cases hr; rfl
    | handle g =>
      have hr : read S g = .ok b := hr
      simp only [cmpLeft, hr, Except.bind]
      exact M.swap d a b
  cases c <;> simp only [cmpMethod, hl, Except.bind, key]
  exact (M.ne a b).symm

theorem cmp_eq (P : Prim) (M : Mirror P) (first : Handle → Handle → Bool) (S : Sim) (c : Cmp)
    (l r : Obj) (a b : Py) (hl : value S l = .ok a) (hr : value S r = .ok b) :
    cmp P first S c l r = P.cmp c a b := by
  cases l with
  | val p =>
    cases hl
    cases r with
    | val q => cases hr; rfl
    | handle g =>
      show cmpMethod P S c.swap g (.val a) = _
      rw [cmpMethod_eq P M S c.swap g (.val a) b a hr rfl]
      exact M.swap c a b
  | handle h =>
    cases r with
    | val q => cases hr; exact cmpMethod_eq P M S c h (.val b) a b hl rfl
    | handle g =>
      show (if first h g then cmpMethod P S c.swap g (.handle h)
        else cmpMethod P S c h (.handle g)) = _
      split
      · rw [cmpMethod_eq P M S c.swap g (.handle h) b a hr hl]
        exact M.swap c a b
      · exact cmpMethod_eq P M S c h (.handle g) a b hl hr

theorem binop_ok (P : Prim) (first : Handle → Handle → Bool) (S : Sim) (op : Bin)
    (hb : op.bound = true) (l r : Obj) (v : Py) (h : binop P first S op l r = .ok v) :
    ∃ a b, value S l = .ok a ∧ value S r = .ok b ∧ P.bin op a b = .ok v := by
  cases hl : value S l with
  | ok a =>
    cases hr : value S r with
    | ok b => exact ⟨a, b, rfl, rfl, (binop_eq P first S op hb l r a b hl hr).symm.trans h⟩
    | error e =>
      exfalso
      cases r with
      | val q => cases hr
      | handle g =>
        have hr : read S g = .error e := hr
        cases l with
        | val p => simp [binop, binLeft, hb, hr, Except.bind] at h
        | handle k =>
          have hl : read S k = .ok a := hl
          cases hf : first k g <;>
            simp [binop, binLeft, binRight, hb, hr, hl, hf, Except.bind] at h
  | error e =>
    exfalso
    cases l with
    | val p => cases hl
    | handle k =>
      have hl : read S k = .error e := hl
      cases r with
      | val q => simp [binop, binRight, hb, hl, Except.bind] at h
      | handle g =>
        cases hf : first k g with
        | false => simp [binop, hb, hl, hf, Except.bind] at h
        | true =>
          cases hg : read S g <;> simp [binop, binRight, hb, hl, hg, hf, Except.bind] at h

theorem cmpMethod_ok (P : Prim) (S : Sim) (c : Cmp) (h : Handle) (r : Obj) (t : Bool)
    (e : cmpMethod P S c h r = .ok t) :
    ∃ a b, read S h = .ok a ∧ value S r = .ok b := by
  have key : ∀ d : Cmp, ∀ t, ((read S h).bind fun v => cmpLeft P S d v r) = .ok t →
      ∃ a b, read S h = .ok a ∧ value S r = .ok b := by
    intro d t e
    obtain ⟨a, ha, e⟩ := bind_ok.1 e
    cases r with
    | val q => exact ⟨a, q, ha, rfl⟩
    | handle g =>
      obtain ⟨b, hb, -⟩ := bind_ok.1 e
      exact ⟨a, b, ha, hb⟩
  cases c <;> simp only [cmpMethod] at e
  case ne =>
    obtain ⟨u, hu, -⟩ := map_ok.1 e
    exact key _ _ hu
  all_goals exact key _ _ e

theorem cmp_ok (P : Prim) (first : Handle → Handle → Bool) (S : Sim) (c : Cmp) (l r : Obj) (t : Bool)
    (e : cmp P first S c l r = .ok t) :
    ∃ a b, value S l = .ok a ∧ value S r = .ok b := by
  cases l with
  | val p =>
    cases r with
    | val q => exact ⟨p, q, rfl, rfl⟩
    | handle g =>
      obtain ⟨a, b, ha, hb⟩ := cmpMethod_ok P S _ g (.val p) t e
      exact ⟨b, a, hb, ha⟩
  | handle h =>
    cases r with
    | val q => exact cmpMethod_ok P S _ h (.val q) t e
    | handle g =>
      have e : (if first h g then cmpMethod P S c.swap g (.handle h)
        else cmpMethod P S c h (.handle g)) = .ok t := e
      split at e
      · obtain ⟨a, b, ha, hb⟩ := cmpMethod_ok P S _ g (.handle h) t e
        exact ⟨b, a, hb, ha⟩
      · exact cmpMethod_ok P S _ h (.handle g) t e

theorem truth_eq (S : Sim) (hT : NoText S) (o : Obj) (v : Py) (h : value S o = .ok v) :
    truth S o = .ok (pyTruth v) := by
  cases o with
  | val p => cases h; rfl
  | handle g =>
    have h : read S g = .ok v := h
    have hp := read_plain S g v h
    cases v with
    | str s => exact absurd h (hT g s)
    | other => exact absurd rfl hp.1
    | field b => exact absurd rfl (hp.2 b)
    | _ => simp [truth, h, Except.bind, castBool, lift, pyTruth]

theorem truth_ok (S : Sim) (o : Obj) (t : Bool) (h : truth S o = .ok t) :
    ∃ v, value S o = .ok v := by
  cases o with
  | val p => exact ⟨p, rfl⟩
  | handle g =>
    obtain ⟨v, hv, -⟩ := bind_ok.1 h
    exact ⟨v, hv⟩

theorem unop_eq (P : Prim) (S : Sim) (u : Un) (hu : u ≠ .pos) (o : Obj) :
    unop P S u o = (value S o).bind fun v => P.un u v := by
  cases o with
  | val p => rfl
  | handle h =>
    cases u with
    | pos => exact absurd rfl hu
    | neg => rfl
    | invert => rfl

theorem setAttr_val (narrow : Fl → Fl) (S S' : Sim) (h : Handle) (r : Py)
    (e : setAttr narrow S h (.val r) = .ok S') :
    ∃ v, ofPy narrow r (S.fields (target S h)).type
        = .ok v ∧
      S' = S.set (target S h) v := by
  cases h with
  | field i =>
    obtain ⟨v, hv, e⟩ := map_ok.1 (show (lift (assign narrow (S.fields i) r)).map _ = _ from e)
    have hv := lift_ok hv
    unfold assign at hv
    cases ho : ofPy narrow r (S.fields i).type with
    | ok w =>
      rw [ho] at hv
      simp only [Res.bind, store] at hv
      split at hv
      · cases hv; exact ⟨_, ho, e.symm⟩
      · cases hv
    | _ => rw [ho] at hv; simp [Res.bind] at hv
  | prop i =>
    obtain ⟨v, hv, e⟩ := bind_ok.1 (show (lift (ofPy narrow r (S.fields (S.props i).cell).type)).bind _
      = _ from e)
    have hv := lift_ok hv
    split at e
    · cases e
    · obtain ⟨w, hw, e⟩ := map_ok.1 e
      have hw := lift_ok hw
      unfold store at hw
      split at hw <;> simp at hw
      subst hw
      exact ⟨_, hv, e.symm⟩

theorem setAttr_frame (narrow : Fl → Fl) (S S' : Sim) (h : Handle) (o : Obj)
    (e : setAttr narrow S h o = .ok S') :
    S'.props = S.props ∧
      ∀ j, j ≠ (target S h) →
        S'.fields j = S.fields j := by
  have put : ∀ o, setAttr.put narrow S h o = .ok S' → S'.props = S.props ∧
      ∀ j, j ≠ (target S h) →
        S'.fields j = S.fields j := by
    intro o e
    cases h with
    | field i =>
      obtain ⟨v, -, rfl⟩ := map_ok.1 e
      exact ⟨rfl, fun j hj => if_neg hj⟩
    | prop i =>
      obtain ⟨v, -, e⟩ := bind_ok.1 e
      split at e
      · cases e
      · obtain ⟨w, -, rfl⟩ := map_ok.1 e
        exact ⟨rfl, fun j hj => if_neg hj⟩
  cases o with
  | val p => exact put _ e
  | handle g =>
    unfold setAttr at e
    dsimp only at e
    split at e
    · cases e; exact ⟨rfl, fun _ _ => rfl⟩
    · exact put _ e

theorem expr_iff (P : Prim) (M : Mirror P) (first : Handle → Handle → Bool) (env : Nat → Obj) (S : Sim)
    (e : Expr) (hs : Supported e) (hl : NoLogic e ∨ NoText S) (v : Py) :
    (eval P first env S e).bind (value S) = .ok v ↔ meaning P env S e = .ok v := by
  induction e generalizing v with
  | lit p => exact Iff.rfl
  | var x => exact Iff.rfl
  | attr h => exact Iff.rfl
  | bin op a b iha ihb =>
    have hb := (bound_iff op).2 hs.1
    have iha := iha hs.2.1 (hl.imp (·.1) id)
    have ihb := ihb hs.2.2 (hl.imp (·.2) id)
    show ((eval P first env S a).bind fun l => (eval P first env S b).bind fun r =>
      (binop P first S op l r).map Obj.val).bind (value S) = .ok v ↔
      ((meaning P env S a).bind fun x => (meaning P env S b).bind fun y => P.bin op x y) = .ok v
    constructor
    · intro h
      obtain ⟨o, h, ho⟩ := bind_ok.1 h
      obtain ⟨l, hl', h⟩ := bind_ok.1 h
      obtain ⟨r, hr', h⟩ := bind_ok.1 h
      obtain ⟨w, hw, rfl⟩ := map_ok.1 h
      cases ho
      obtain ⟨x, y, hx, hy, hxy⟩ := binop_ok P first S op hb l r v hw
      exact bind_ok.2 ⟨x, (iha x).1 (bind_ok.2 ⟨l, hl', hx⟩),
        bind_ok.2 ⟨y, (ihb y).1 (bind_ok.2 ⟨r, hr', hy⟩), hxy⟩⟩
    · intro h
      obtain ⟨x, hx, h⟩ := bind_ok.1 h
      obtain ⟨y, hy, h⟩ := bind_ok.1 h
      obtain ⟨l, hl', hx⟩ := bind_ok.1 ((iha x).2 hx)
      obtain ⟨r, hr', hy⟩ := bind_ok.1 ((ihb y).2 hy)
      refine bind_ok.2 ⟨.val v, bind_ok.2 ⟨l, hl', bind_ok.2 ⟨r, hr', map_ok.2 ⟨v, ?_, rfl⟩⟩⟩, rfl⟩
      exact (binop_eq P first S op hb l r x y hx hy).trans h
  | cmp c a b iha ihb =>
    have iha := iha hs.1 (hl.imp (·.1) id)
    have ihb := ihb hs.2 (hl.imp (·.2) id)
    show ((eval P first env S a).bind fun l => (eval P first env S b).bind fun r =>
      (cmp P first S c l r).map fun t => Obj.val (.bool t)).bind (value S) = .ok v ↔
      ((meaning P env S a).bind fun x => (meaning P env S b).bind fun y =>
        (P.cmp c x y).bind fun t => .ok (.bool t)) = .ok v
    constructor
    · intro h
      obtain ⟨o, h, ho⟩ := bind_ok.1 h
      obtain ⟨l, hl', h⟩ := bind_ok.1 h
      obtain ⟨r, hr', h⟩ := bind_ok.1 h
      obtain ⟨t, ht, rfl⟩ := map_ok.1 h
      cases ho
      obtain ⟨x, y, hx, hy⟩ := cmp_ok P first S c l r t ht
      rw [cmp_eq P M first S c l r x y hx hy] at ht
      exact bind_ok.2 ⟨x, (iha x).1 (bind_ok.2 ⟨l, hl', hx⟩),
        bind_ok.2 ⟨y, (ihb y).1 (bind_ok.2 ⟨r, hr', hy⟩), bind_ok.2 ⟨t, ht, rfl⟩⟩⟩
    · intro h
      obtain ⟨x, hx, h⟩ := bind_ok.1 h
      obtain ⟨y, hy, h⟩ := bind_ok.1 h
      obtain ⟨t, ht, h⟩ := bind_ok.1 h
      cases h
      obtain ⟨l, hl', hx⟩ := bind_ok.1 ((iha x).2 hx)
      obtain ⟨r, hr', hy⟩ := bind_ok.1 ((ihb y).2 hy)
      refine bind_ok.2 ⟨.val (.bool t), bind_ok.2 ⟨l, hl', bind_ok.2 ⟨r, hr', map_ok.2 ⟨t, ?_, rfl⟩⟩⟩,
        rfl⟩
      exact (cmp_eq P M first S c l r x y hx hy).trans ht
  | un u a iha =>
    have iha := iha hs.2 (hl.imp id id)
    show ((eval P first env S a).bind fun l => (unop P S u l).map Obj.val).bind (value S) = .ok v ↔
      ((meaning P env S a).bind fun x => P.un u x) = .ok v
    constructor
    · intro h
      obtain ⟨o, h, ho⟩ := bind_ok.1 h
      obtain ⟨l, hl', h⟩ := bind_ok.1 h
      obtain ⟨w, hw, rfl⟩ := map_ok.1 h
      cases ho
      rw [unop_eq P S u hs.1] at hw
      obtain ⟨x, hx, hw⟩ := bind_ok.1 hw
      exact bind_ok.2 ⟨x, (iha x).1 (bind_ok.2 ⟨l, hl', hx⟩), hw⟩
    · intro h
      obtain ⟨x, hx, h⟩ := bind_ok.1 h
      obtain ⟨l, hl', hx⟩ := bind_ok.1 ((iha x).2 hx)
      refine bind_ok.2 ⟨.val v, bind_ok.2 ⟨l, hl', map_ok.2 ⟨v, ?_, rfl⟩⟩, rfl⟩
      rw [unop_eq P S u hs.1]
      exact bind_ok.2 ⟨x, hx, h⟩
  | not a iha =>
    have hT : NoText S := hl.resolve_left (fun h => h)
    have iha := iha hs (.inr hT)
    show ((eval P first env S a).bind fun l => (truth S l).map fun t => Obj.val (.bool !t)).bind
      (value S) = .ok v ↔ ((meaning P env S a).bind fun x => .ok (.bool !(pyTruth x))) = .ok v
    constructor
    · intro h
      obtain ⟨o, h, ho⟩ := bind_ok.1 h
      obtain ⟨l, hl', h⟩ := bind_ok.1 h
      obtain ⟨t, ht, rfl⟩ := map_ok.1 h
      cases ho
      obtain ⟨x, hx⟩ := truth_ok S l t ht
      rw [truth_eq S hT l x hx] at ht
      cases ht
      exact bind_ok.2 ⟨x, (iha x).1 (bind_ok.2 ⟨l, hl', hx⟩), rfl⟩
    · intro h
      obtain ⟨x, hx, h⟩ := bind_ok.1 h
      cases h
      obtain ⟨l, hl', hx⟩ := bind_ok.1 ((iha x).2 hx)
      exact bind_ok.2 ⟨.val (.bool !(pyTruth x)), bind_ok.2 ⟨l, hl', map_ok.2 ⟨_, truth_eq S hT l x hx,
        rfl⟩⟩, rfl⟩
  | and a b iha ihb =>
    have hT : NoText S := hl.resolve_left (fun h => h)
    have iha := iha hs.1 (.inr hT)
    have ihb := ihb hs.2 (.inr hT)
    show ((eval P first env S a).bind fun l => (truth S l).bind fun t =>
      if t then eval P first env S b else .ok l).bind (value S) = .ok v ↔
      ((meaning P env S a).bind fun x => if pyTruth x then meaning P env S b else .ok x) = .ok v
    constructor
    · intro h
      obtain ⟨o, h, ho⟩ := bind_ok.1 h
      obtain ⟨l, hl', h⟩ := bind_ok.1 h
      obtain ⟨t, ht, h⟩ := bind_ok.1 h
      obtain ⟨x, hx⟩ := truth_ok S l t ht
      rw [truth_eq S hT l x hx] at ht
      cases ht
      refine bind_ok.2 ⟨x, (iha x).1 (bind_ok.2 ⟨l, hl', hx⟩), ?_⟩
      split at h
      · rename_i hp; rw [if_pos hp]; exact (ihb v).1 (bind_ok.2 ⟨o, h, ho⟩)
      · rename_i hp; rw [if_neg hp]; cases h; exact hx.symm.trans ho
    · intro h
      obtain ⟨x, hx, h⟩ := bind_ok.1 h
      obtain ⟨l, hl', hx⟩ := bind_ok.1 ((iha x).2 hx)
      split at h
      · rename_i hp
        obtain ⟨o, h, ho⟩ := bind_ok.1 ((ihb v).2 h)
        refine bind_ok.2 ⟨o, bind_ok.2 ⟨l, hl', bind_ok.2 ⟨_, truth_eq S hT l x hx, ?_⟩⟩, ho⟩
        rw [if_pos hp]; exact h
      · rename_i hp
        cases h
        refine bind_ok.2 ⟨l, bind_ok.2 ⟨l, hl', bind_ok.2 ⟨_, truth_eq S hT l _ hx, ?_⟩⟩, hx⟩
        rw [if_neg hp]
  | or a b iha ihb =>
    have hT : NoText S := hl.resolve_left (fun h => h)
    have iha := iha hs.1 (.inr hT)
    have ihb := ihb hs.2 (.inr hT)
    show ((eval P first env S a).bind fun l => (truth S l).bind fun t =>
      if t then .ok l else eval P first env S b).bind (value S) = .ok v ↔
      ((meaning P env S a).bind fun x => if pyTruth x then .ok x else meaning P env S b) = .ok v
    constructor
    · intro h
      obtain ⟨o, h, ho⟩ := bind_ok.1 h
      obtain ⟨l, hl', h⟩ := bind_ok.1 h
      obtain ⟨t, ht, h⟩ := bind_ok.1 h
      obtain ⟨x, hx⟩ := truth_ok S l t ht
      rw [truth_eq S hT l x hx] at ht
      cases ht
      refine bind_ok.2 ⟨x, (iha x).1 (bind_ok.2 ⟨l, hl', hx⟩), ?_⟩
      split at h
      · rename_i hp; rw [if_pos hp]; cases h; exact hx.symm.trans ho
      · rename_i hp; rw [if_neg hp]; exact (ihb v).1 (bind_ok.2 ⟨o, h, ho⟩)
    · intro h
      obtain ⟨x, hx, h⟩ := bind_ok.1 h
      obtain ⟨l, hl', hx⟩ := bind_ok.1 ((iha x).2 hx)
      split at h
      · rename_i hp
        cases h
        refine bind_ok.2 ⟨l, bind_ok.2 ⟨l, hl', bind_ok.2 ⟨_, truth_eq S hT l _ hx, ?_⟩⟩, hx⟩
        rw [if_pos hp]
      · rename_i hp
        obtain ⟨o, h, ho⟩ := bind_ok.1 ((ihb v).2 h)
        refine bind_ok.2 ⟨o, bind_ok.2 ⟨l, hl', bind_ok.2 ⟨_, truth_eq S hT l x hx, ?_⟩⟩, ho⟩
        rw [if_neg hp]; exact h

end Verif.Python.Oper
