import Verif.Python.OperLemmas

/-
C130: what Python's operators and assignments do with the fields and properties of a simulator.
The specification (`value`, `meaning`, `Mirror`) is at the head of Verif/Python/OperLemmas.lean.
-/
namespace Verif.Python.Oper

open Verif.Any Verif.Python.Value

/-! ### A simulator for the examples -/

/-- Python's operators on integers, some of them. -/
def ints : Prim where
  bin := fun op a b => match op, a, b with
    | .add, .int x, .int y => .ok (.int (x + y))
    | .sub, .int x, .int y => .ok (.int (x - y))
    | .mul, .int x, .int y => .ok (.int (x * y))
    | .floordiv, .int x, .int y => if y = 0 then .error .value else .ok (.int (x / y))
    | .add, .str x, .str y => .ok (.str (x ++ y))
    | _, _, _ => .error .type
  cmp := fun c a b => match a, b with
    | .int x, .int y => .ok (match c with
      | .eq => decide (x = y) | .ne => decide (x ≠ y) | .lt => decide (x < y) | .le => decide (x ≤ y)
      | .gt => decide (y < x) | .ge => decide (y ≤ x))
    | _, _ => match c with
      | .eq => .ok false
      | .ne => .ok true
      | _ => .error .type
  un := fun u a => match u, a with
    | .neg, .int x => .ok (.int (-x))
    | .pos, .int x => .ok (.int x)
    | .invert, .int x => .ok (.int (-x - 1))
    | _, _ => .error .type

theorem ints_mirror : Mirror ints := by
  constructor <;> intro a b <;> cases a <;> cases b <;> try rfl
  all_goals simp [ints, eq_comm, Except.map]

/-- Field 0 is an `Int32` of value 7, field 1 an `Int8` of value 120, field 2 a text; property 0 is
field 0, property 1 is field 1 for reading only, property 2 is field 1 for writing only. -/
def sample : Sim where
  fields := fun i => match i with
    | 0 => ⟨.Int32, .int 7⟩
    | 1 => ⟨.Int8, .int 120⟩
    | _ => ⟨.String8, .str (some [97, 98])⟩
  props := fun i => match i with
    | 0 => ⟨0, .readWrite⟩
    | 1 => ⟨1, .readOnly⟩
    | _ => ⟨1, .writeOnly⟩

/-- `f = component.f0` and `p = component.p1`, everything else `None`. -/
def names : Nat → Obj
  | 0 => .handle (.field 0)
  | 1 => .handle (.prop 1)
  | _ => .val .none

/-! ### The operators -/

/-- C130: a binary operator that the binding defines gives, for any mixture of plain values, fields and
properties, what it gives for their current values; if one of them cannot be read, its exception. -/
theorem C130_binary (P : Prim) (first : Handle → Handle → Bool) (S : Sim) (op : Bin)
    (hop : op ∉ [Bin.floordiv, .mod, .pow]) (l r : Obj) :
    (∀ a b, value S l = .ok a → value S r = .ok b → binop P first S op l r = P.bin op a b) ∧
    (∀ e b, value S l = .error e → value S r = .ok b → binop P first S op l r = .error e) ∧
    (∀ a e, value S l = .ok a → value S r = .error e → binop P first S op l r = .error e) ∧
    (∀ e e', value S l = .error e → value S r = .error e' →
      binop P first S op l r = .error e ∨ binop P first S op l r = .error e') := by
  have hb := (bound_iff op).2 hop
  refine ⟨binop_eq P first S op hb l r, ?_, ?_, ?_⟩
  · intro e b hl hr
    cases l with
    | val p => cases hl
    | handle h =>
      have hl : read S h = .error e := hl
      cases r with
      | val q => simp [binop, binRight, hb, hl, Except.bind]
      | handle g =>
        have hr : read S g = .ok b := hr
        cases hf : first h g <;> simp [binop, binRight, hb, hl, hr, hf, Except.bind]
  · intro a e hl hr
    cases r with
    | val q => cases hr
    | handle g =>
      have hr : read S g = .error e := hr
      cases l with
      | val p => simp [binop, binLeft, hb, hr, Except.bind]
      | handle h =>
        have hl : read S h = .ok a := hl
        cases hf : first h g <;> simp [binop, binLeft, hb, hl, hr, hf, Except.bind]
  · intro e e' hl hr
    cases l with
    | val p => cases hl
    | handle h =>
      cases r with
      | val q => cases hr
      | handle g =>
        have hl : read S h = .error e := hl
        have hr : read S g = .error e' := hr
        cases hf : first h g <;> simp [binop, hb, hl, hr, hf, Except.bind]

example : value sample (.handle (.field 0)) = .ok (.int 7) ∧
    value sample (.handle (.prop 1)) = .ok (.int 120) ∧
    value sample (.handle (.prop 2)) = .error .access ∧
    binop ints (fun _ _ => false) sample .sub (.handle (.field 0)) (.handle (.prop 1))
      = .ok (.int (-113)) ∧
    binop ints (fun _ _ => true) sample .sub (.handle (.field 0)) (.handle (.prop 1))
      = .ok (.int (-113)) ∧
    binop ints (fun _ _ => false) sample .sub (.val (.int 1)) (.handle (.field 0))
      = .ok (.int (-6)) ∧
    binop ints (fun _ _ => false) sample .add (.handle (.field 0)) (.handle (.prop 2))
      = .error .access := ⟨rfl, rfl, rfl, rfl, rfl, rfl, rfl⟩

/-- C130: a comparison, also `!=`, of any mixture of plain values, fields and properties is the
comparison of their current values. -/
theorem C130_compare (P : Prim) (M : Mirror P) (first : Handle → Handle → Bool) (S : Sim) (c : Cmp)
    (l r : Obj) :
    (∀ a b, value S l = .ok a → value S r = .ok b → cmp P first S c l r = P.cmp c a b) ∧
    (∀ t, cmp P first S c l r = .ok t → ∃ a b, value S l = .ok a ∧ value S r = .ok b ∧
      P.cmp c a b = .ok t) := by
  refine ⟨cmp_eq P M first S c l r, ?_⟩
  intro t h
  obtain ⟨a, b, ha, hb⟩ := cmp_ok P first S c l r t h
  exact ⟨a, b, ha, hb, (cmp_eq P M first S c l r a b ha hb).symm.trans h⟩

example : Mirror ints ∧
    cmp ints (fun _ _ => false) sample .ne (.handle (.field 0)) (.handle (.prop 1)) = .ok true ∧
    cmp ints (fun _ _ => false) sample .ne (.val (.int 7)) (.handle (.prop 0)) = .ok false ∧
    cmp ints (fun _ _ => false) sample .lt (.val (.int 8)) (.handle (.field 0)) = .ok false ∧
    cmp ints (fun _ _ => true) sample .le (.handle (.field 0)) (.handle (.prop 1)) = .ok true :=
  ⟨ints_mirror, rfl, rfl, rfl, rfl⟩

/-- C130: an expression, however deep, in which fields and properties are operands has the value that
it has with their current values in their place, and raises if and only if that does. Missing: the
operators `//`, `%` and `**`, see `C130_missing_fails`, `+e`, see `C130_pos_fails`, and texts in
conditions, see `C130_text_fails`. -/
theorem C130_expr_partial (P : Prim) (M : Mirror P) (first : Handle → Handle → Bool) (env : Nat → Obj)
    (S : Sim) (e : Expr) (hs : Supported e) (hl : NoLogic e ∨ NoText S) :
    (∀ v, (eval P first env S e).bind (value S) = .ok v ↔ meaning P env S e = .ok v) ∧
    ((∃ x, (eval P first env S e).bind (value S) = .error x) ↔ ∃ x, meaning P env S e = .error x) := by
  have key := fun v => expr_iff P M first env S e hs hl v
  refine ⟨key, ?_⟩
  cases h : (eval P first env S e).bind (value S) with
  | ok v => rw [(key v).1 h]
  | error x =>
    cases h' : meaning P env S e with
    | ok v => rw [(key v).2 h'] at h; cases h
    | error y => simp

/-- `f * 2 - p < 0` and `f or p`. -/
example : Supported (.cmp .lt (.bin .sub (.bin .mul (.var 0) (.lit (.int 2))) (.var 1)) (.lit (.int 0))) ∧
    NoLogic (.cmp .lt (.bin .sub (.bin .mul (.var 0) (.lit (.int 2))) (.var 1)) (.lit (.int 0))) ∧
    meaning ints names sample
      (.cmp .lt (.bin .sub (.bin .mul (.var 0) (.lit (.int 2))) (.var 1)) (.lit (.int 0)))
      = .ok (.bool true) ∧
    eval ints (fun _ _ => false) names sample (.or (.var 0) (.var 1)) = .ok (.handle (.field 0)) :=
  ⟨by simp [Supported], by simp [NoLogic], rfl, rfl⟩

/-- C130 fails: the operators `//`, `%` and `**` on a field raise `TypeError`, whatever its value;
of the value 7 the quotient by 2 is 3. -/
theorem C130_missing_fails :
    (∀ (P : Prim) (first : Handle → Handle → Bool) (S : Sim) (op : Bin) (h : Handle) (o : Obj),
      op ∈ [Bin.floordiv, .mod, .pow] →
      binop P first S op (.handle h) o = .error .type ∧
      ∀ p, binop P first S op (.val p) (.handle h) = .error .type) ∧
    value sample (.handle (.field 0)) = .ok (.int 7) ∧
    ints.bin .floordiv (.int 7) (.int 2) = .ok (.int 3) := by
  refine ⟨?_, rfl, rfl⟩
  intro P first S op h o hop
  have hb : op.bound = false := by
    cases hc : op.bound with
    | false => rfl
    | true => exact absurd hop ((bound_iff op).1 hc)
  refine ⟨?_, fun p => by simp [binop, binLeft, hb]⟩
  cases o with
  | val p => simp [binop, binRight, hb]
  | handle g => simp [binop, hb]

/-- C130 fails: `+field` is the value even for a text, for which Python's `+` raises. -/
theorem C130_pos_fails :
    ∃ (S : Sim) (h : Handle) (p : Py), read S h = .ok p ∧ ints.un .pos p = .error .type ∧
      unop ints S .pos (.handle h) = .ok p :=
  ⟨sample, .field 2, .str ['a', 'b'], rfl, rfl, rfl⟩

/-- C130 fails: `not field` raises for a text, for which Python's `not` is `False`. -/
theorem C130_text_fails :
    ∃ (env : Nat → Obj) (S : Sim) (h : Handle),
      meaning ints env S (.not (.attr h)) = .ok (.bool false) ∧
      eval ints (fun _ _ => false) env S (.not (.attr h)) = .error .cast :=
  ⟨names, sample, .field 2, rfl, rfl⟩

/-! ### Assignments -/

/-- C130: `component.name op= e` stores, in the field or in the field of the property, the result of the
operator for the current values, converted to the kind of the field, and changes nothing else; if it
raises nothing is changed. -/
theorem C130_augmented_partial (P : Prim) (M : Mirror P) (first : Handle → Handle → Bool)
    (narrow : Fl → Fl) (env env' : Nat → Obj) (S S' : Sim) (h : Handle) (op : Bin) (e : Expr)
    (hop : op ∉ [Bin.floordiv, .mod, .pow]) (hs : Supported e) (hl : NoLogic e ∨ NoText S)
    (hx : exec P first narrow env S (.augAttr h op e) = .ok (env', S')) :
    env' = env ∧ S'.props = S.props ∧
    (∀ j, j ≠ target S h → S'.fields j = S.fields j) ∧
    ∃ a b r v, read S h = .ok a ∧ meaning P env S e = .ok b ∧ P.bin op a b = .ok r ∧
      ofPy narrow r (S.fields (target S h)).type = .ok v ∧ S'.fields (target S h) = v := by
  obtain ⟨o, ho, hx⟩ := bind_ok.1 hx
  obtain ⟨r, hr, hx⟩ := bind_ok.1 hx
  obtain ⟨T, hT, hx⟩ := map_ok.1 hx
  cases hx
  obtain ⟨a, b, ha, hb, hab⟩ := binop_ok P first S op ((bound_iff op).2 hop) _ _ _ hr
  obtain ⟨v, hv, hS⟩ := setAttr_val narrow S S' h r hT
  subst hS
  have hm := (expr_iff P M first env S e hs hl b).1 (bind_ok.2 ⟨o, ho, hb⟩)
  exact ⟨rfl, rfl, fun j hj => if_neg hj, a, b, r, v, ha, hm, hab, hv, if_pos rfl⟩

/-- C130: `component.name op= e` does so whenever the operator has a result that the field can hold and
the property can be written. -/
theorem C130_augmented_done (P : Prim) (M : Mirror P) (first : Handle → Handle → Bool)
    (narrow : Fl → Fl) (env : Nat → Obj) (S : Sim) (h : Handle) (op : Bin) (e : Expr)
    (hop : op ∉ [Bin.floordiv, .mod, .pow]) (hs : Supported e) (hl : NoLogic e ∨ NoText S)
    (a b r : Py) (v : Any) (ha : read S h = .ok a) (hm : meaning P env S e = .ok b)
    (hab : P.bin op a b = .ok r) (hv : ofPy narrow r (S.fields (target S h)).type = .ok v)
    (hk : v.type = (S.fields (target S h)).type)
    (hw : ∀ i, h = .prop i → (S.props i).access ≠ .readOnly) :
    ∃ S', exec P first narrow env S (.augAttr h op e) = .ok (env, S') ∧
      S'.fields (target S h) = v := by
  obtain ⟨o, ho, hb⟩ := bind_ok.1 ((expr_iff P M first env S e hs hl b).2 hm)
  have hr : binop P first S op (.handle h) o = .ok r :=
    (binop_eq P first S op ((bound_iff op).2 hop) (.handle h) o a b ha hb).trans hab
  have hset : setAttr narrow S h (.val r) = .ok (S.set (target S h) v) := by
    cases h with
    | field i =>
      have hv : ofPy narrow r (S.fields i).type = .ok v := hv
      have hk : v.type = (S.fields i).type := hk
      simp [setAttr, setAttr.put, argOf, assign, hv, Res.bind, store, hk, lift, Except.map, target]
    | prop i =>
      have hv : ofPy narrow r (S.fields (S.props i).cell).type = .ok v := hv
      have hk : v.type = (S.fields (S.props i).cell).type := hk
      have hw := hw i rfl
      have hst : store (S.fields (S.props i).cell).type v = .ok v := by simp [store, hk]
      simp only [setAttr, setAttr.put, argOf, hv, hst, target]
      cases hc : (S.props i).access with
      | readOnly => exact absurd hc hw
      | readWrite => simp [lift, Except.bind, hst, Except.map]
      | writeOnly => simp [lift, Except.bind, hst, Except.map]
  refine ⟨S.set (target S h) v, ?_, if_pos rfl⟩
  exact bind_ok.2 ⟨o, ho, bind_ok.2 ⟨r, hr, map_ok.2 ⟨_, hset, rfl⟩⟩⟩

/-- `component.p0 += component.f1` stores 127 in field 0; `component.f1 += 8` raises, 128 is no `Int8`. -/
example : (∃ S', exec ints (fun _ _ => false) id names sample (.augAttr (.prop 0) .add (.attr (.field 1)))
      = .ok (names, S') ∧ S'.fields 0 = ⟨.Int32, .int 127⟩) ∧
    exec ints (fun _ _ => false) id names sample (.augAttr (.field 1) .add (.lit (.int 8)))
      = .error .cast ∧
    exec ints (fun _ _ => false) id names sample (.augAttr (.prop 1) .add (.lit (.int 1)))
      = .error .access :=
  ⟨⟨_, rfl, rfl⟩, rfl, rfl⟩

/-- C130: `component.name = component.name` does nothing and never raises. -/
theorem C130_self (P : Prim) (first : Handle → Handle → Bool) (narrow : Fl → Fl) (env : Nat → Obj)
    (S : Sim) (h : Handle) : exec P first narrow env S (.setAttr h (.attr h)) = .ok (env, S) := by
  simp [exec, eval, setAttr, Except.bind, Except.map]

example : exec ints (fun _ _ => false) id names sample (.setAttr (.prop 2) (.attr (.prop 2)))
    = .ok (names, sample) := rfl

/-- C130: a program changes only the fields that it assigns with `component.name = e` or
`component.name op= e`, directly or by a property; assignments to local names change no field. -/
theorem C130_frame (P : Prim) (first : Handle → Handle → Bool) (narrow : Fl → Fl) (p : List Stmt)
    (env : Nat → Obj) (S : Sim) (j : Nat)
    (h : ∀ s ∈ p, ∀ g, (∃ e, s = .setAttr g e) ∨ (∃ op e, s = .augAttr g op e) → target S g ≠ j) :
    (runAll P first narrow env S p).1.2.fields j = S.fields j ∧
    (runAll P first narrow env S p).1.2.props = S.props := by
  induction p generalizing env S with
  | nil => exact ⟨rfl, rfl⟩
  | cons s p ih =>
    have step : ∀ env' S', exec P first narrow env S s = .ok (env', S') →
        S'.fields j = S.fields j ∧ S'.props = S.props := by
      intro env' S' hx
      have frame : ∀ g o, target S g ≠ j → setAttr narrow S g o = .ok S' →
          S'.fields j = S.fields j ∧ S'.props = S.props := by
        intro g o hg ho
        obtain ⟨hp, hf⟩ := setAttr_frame narrow S S' g o ho
        refine ⟨hf j ?_, hp⟩
        cases g <;> exact fun hj => hg hj.symm
      cases s with
      | setVar x e => obtain ⟨_, -, hx⟩ := map_ok.1 hx; cases hx; exact ⟨rfl, rfl⟩
      | augVar x op e =>
        obtain ⟨_, -, hx⟩ := bind_ok.1 hx
        obtain ⟨_, -, hx⟩ := map_ok.1 hx
        cases hx; exact ⟨rfl, rfl⟩
      | setAttr g e =>
        obtain ⟨o, -, hx⟩ := bind_ok.1 hx
        obtain ⟨T, hT, hx⟩ := map_ok.1 hx
        cases hx
        exact frame g o (h _ (.head _) g (.inl ⟨e, rfl⟩)) hT
      | augAttr g op e =>
        obtain ⟨o, -, hx⟩ := bind_ok.1 hx
        obtain ⟨v, -, hx⟩ := bind_ok.1 hx
        obtain ⟨T, hT, hx⟩ := map_ok.1 hx
        cases hx
        exact frame g _ (h _ (.head _) g (.inr ⟨op, e, rfl⟩)) hT
    unfold runAll
    cases hx : exec P first narrow env S s with
    | error e => exact ⟨rfl, rfl⟩
    | ok q =>
      obtain ⟨env', S'⟩ := q
      obtain ⟨hf, hp⟩ := step env' S' hx
      have := ih env' S' (by
        intro t ht g hg
        have := h t (.tail _ ht) g hg
        cases g with
        | field i => exact this
        | prop i => simpa only [target, hp] using this)
      exact ⟨this.1.trans hf, this.2.trans hp⟩

/-- C130: a local name of a field or property keeps standing for it, whatever a program assigns to other
names and to fields: its value is the current one. -/
theorem C130_live (P : Prim) (first : Handle → Handle → Bool) (narrow : Fl → Fl) (p : List Stmt)
    (env : Nat → Obj) (S : Sim) (x : Nat) (g : Handle) (hx : env x = .handle g)
    (h : ∀ s ∈ p, (∀ e, s ≠ .setVar x e) ∧ ∀ op e, s ≠ .augVar x op e) :
    let w := (runAll P first narrow env S p).1
    (eval P first w.1 w.2 (.var x)).bind (value w.2) = read w.2 g := by
  induction p generalizing env S with
  | nil => show value S (env x) = read S g; rw [hx]; rfl
  | cons s p ih =>
    unfold runAll
    cases hq : exec P first narrow env S s with
    | error e => show value S (env x) = read S g; rw [hx]; rfl
    | ok q =>
      obtain ⟨env', S'⟩ := q
      refine ih env' S' ?_ (fun t ht => h t (.tail _ ht))
      have hs := h s (.head _)
      cases s with
      | setVar y e =>
        obtain ⟨o, -, hq⟩ := map_ok.1 hq
        cases hq
        have : x ≠ y := fun hxy => hs.1 e (by rw [hxy])
        show (if x = y then o else env x) = _
        rw [if_neg this, hx]
      | augVar y op e =>
        obtain ⟨_, -, hq⟩ := bind_ok.1 hq
        obtain ⟨v, -, hq⟩ := map_ok.1 hq
        cases hq
        have : x ≠ y := fun hxy => hs.2 op e (by rw [hxy])
        show (if x = y then .val v else env x) = _
        rw [if_neg this, hx]
      | setAttr g' e =>
        obtain ⟨o, -, hq⟩ := bind_ok.1 hq
        obtain ⟨T, -, hq⟩ := map_ok.1 hq
        cases hq; exact hx
      | augAttr g' op e =>
        obtain ⟨o, -, hq⟩ := bind_ok.1 hq
        obtain ⟨v, -, hq⟩ := bind_ok.1 hq
        obtain ⟨T, -, hq⟩ := map_ok.1 hq
        cases hq; exact hx

/-- After `component.f0 += 1` the name `f` stands for 8. -/
example : names 0 = .handle (.field 0) ∧
    (let w := (runAll ints (fun _ _ => false) id names sample
      [.augAttr (.field 0) .add (.lit (.int 1))]).1
     (eval ints (fun _ _ => false) w.1 w.2 (.var 0)).bind (value w.2)) = .ok (.int 8) := ⟨rfl, rfl⟩

/-- C130 fails: `f = component.f0` followed by `f += 1` leaves the field as it was; `f` is then the
number 8. -/
theorem C130_local_fails :
    let w := (runAll ints (fun _ _ => false) id (fun _ => .val .none) sample
      [.setVar 0 (.attr (.field 0)), .augVar 0 .add (.lit (.int 1))])
    w.2 = none ∧ w.1.1 0 = .val (.int 8) ∧ w.1.2.fields 0 = ⟨.Int32, .int 7⟩ :=
  ⟨rfl, rfl, rfl⟩

/-- C130 fails: `component.f0 = component.p1` raises, although the value of the property fits;
`component.f0 = component.p1 + 0` stores it, and so does `component.f0 = component.f1`. -/
theorem C130_property_fails :
    exec ints (fun _ _ => false) id names sample (.setAttr (.field 0) (.attr (.prop 1)))
      = .error .cast ∧
    (∃ S', exec ints (fun _ _ => false) id names sample
        (.setAttr (.field 0) (.bin .add (.attr (.prop 1)) (.lit (.int 0)))) = .ok (names, S') ∧
      S'.fields 0 = ⟨.Int32, .int 120⟩) ∧
    (∃ S', exec ints (fun _ _ => false) id names sample (.setAttr (.field 0) (.attr (.field 1)))
        = .ok (names, S') ∧ S'.fields 0 = ⟨.Int32, .int 120⟩) :=
  ⟨rfl, ⟨_, rfl, rfl⟩, ⟨_, rfl, rfl⟩⟩

end Verif.Python.Oper
