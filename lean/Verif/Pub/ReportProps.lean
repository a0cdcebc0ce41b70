import Verif.Any.ReportProps
import Verif.Pub.Report
import Verif.Pub.OperProps
import Verif.Pub.MarshalProps

/-! Property C100: what the exceptions of requests and operations say. -/
namespace Verif.Pub
open Verif.Any (Kind Fl Val Any Out OutE Report throwInvalidAnyType getIntE getF64E getStringE
  getInt getF64 getString)
open Verif.Path (Str)

/-! ### Specification -/

/-- What is to be known of a request: the name of the operation it returns, the number of its
parameters, the name and kind of the parameter at an index, the kind of the return value. -/
structure Facts where
  opName : Str
  count : Int
  param : Int → Option (Str × Kind)
  ret : Option Kind

/-- The call passes a value `v` where one of kind `k` is required. -/
def Facts.passes (f : Facts) (c : QCall) (v : Any) (k : Kind) : Prop :=
  (∃ i p, c = .set i v ∧ f.param i = some (p, k)) ∨ (c = .setReturn v ∧ f.ret = some k)

/-- What an exception says is true of the call and of the request. -/
def Tells (f : Facts) (c : QCall) : REx → Prop
  | .index op i n => op = f.opName ∧ n = f.count ∧ (c = .get i ∨ ∃ v, c = .set i v) ∧
      ¬ (0 ≤ i ∧ i < f.count)
  | .value p v => ∃ i k, c = .set i v ∧ f.param i = some (p, k)
  | .returnValue op v => c = .setReturn v ∧ op = f.opName
  | .void op => ((∃ v, c = .setReturn v) ∨ c = .getReturn) ∧ op = f.opName ∧ f.ret = none
  | .anyType r => ∃ v k, f.passes c v k ∧ v.type ≠ k ∧ r.expected = k ∧ r.invalid = v.type
  | _ => False

/-- The facts of a request with the parameters `ps` of the operation `o`. -/
def Req.facts (R : Registry) (o : Oper) (ps : List (Str × Uuid)) : Facts :=
  { opName := o.name
    count := ps.length
    param := fun i => if i < 0 then none else ps[i.toNat]?.map fun p => (p.1, kindOf R p.2)
    ret := o.ret.map fun p => kindOf R p.uuid }

/-- The facts of a request to read a property: `GetOperationName` and `GetParameterCount` as it
returns them. -/
def Getter.facts (R : Registry) (g : Getter) : Facts :=
  { opName := g.opName, count := g.count, param := fun _ => none
    ret := some (kindOf R g.prop.uuid) }

/-- The facts of a request to write a property. -/
def Setter.facts (R : Registry) (g : Setter) : Facts :=
  { opName := g.opName, count := g.count
    param := fun i => if i = 0 then some (g.prop.name, kindOf R g.prop.uuid) else none
    ret := none }

/-- The exceptions without their data. -/
def REx.res : REx → Res
  | .anyType _ => .invalidAnyType
  | .index .. => .invalidParameterIndex
  | .value .. => .invalidParameterValue
  | .returnValue .. => .invalidReturnValue
  | .void _ => .voidOperation
  | _ => .ub

/-! ### Lemmas -/

theorem isValidE_forget (t : TypeDef) (a : Any) : (isValidE t a).forget = isValid t a := by
  unfold isValidE isValid
  split
  · rfl
  · cases t <;> simp only [Verif.Any.map_forget, Verif.Any.getIntE_forget, Verif.Any.getF64E_forget,
      Verif.Any.getStringE_forget] <;> rfl

/-- When `isValid` raises. -/
theorem isValidE_bad {t : TypeDef} {a : Any} {r : Report} (ht : TypeOk t) (ha : a.Ok)
    (h : isValidE t a = .bad r) :
    (a.type ≠ t.kind ∧ r = ⟨a.type, t.kind⟩) ∨
    (a.type = t.kind ∧ t.kind = .UInt64 ∧ r = ⟨.Int64, .UInt64⟩) ∨
    (a.type = t.kind ∧ t.kind = .Int64 ∧ r = ⟨.Int32, .Int64⟩) := by
  unfold isValidE at h
  split at h
  · rename_i hk
    simp only [throwInvalidAnyType, OutE.bad.injEq] at h
    exact .inl ⟨fun e => hk e.symm, h.symm⟩
  · rename_i hk
    have hk : t.kind = a.type := Decidable.not_not.1 hk
    right
    obtain ⟨ty, v⟩ := a
    cases t with
    | integer k lo hi =>
      have hb := Verif.Any.map_bad h
      simp only [TypeDef.kind] at hk
      subst hk
      obtain ⟨hm, _⟩ := ht
      simp only [List.mem_cons, List.not_mem_nil, or_false] at hm
      rcases Verif.Any.getIntE_bad ha hb with ⟨_, rfl⟩ | ⟨hr, _⟩
      · left
        refine ⟨rfl, ?_, ?_⟩
        · have hf := Verif.Any.getIntE_forget .i64 ⟨k, v⟩
          rw [hb] at hf
          rcases hm with rfl | rfl | rfl | rfl | rfl | rfl | rfl | rfl <;> cases v <;>
            simp_all [Any.Ok, Verif.Any.Kind.Range, getInt, Kind.int, Verif.Any.conv,
              Verif.Any.getTable, Verif.Any.getInt64, OutE.forget, TypeDef.kind]
        · have hf := Verif.Any.getIntE_forget .i64 ⟨k, v⟩
          rw [hb] at hf
          rcases hm with rfl | rfl | rfl | rfl | rfl | rfl | rfl | rfl <;> cases v <;>
            simp_all [Any.Ok, Verif.Any.Kind.Range, getInt, Kind.int, Verif.Any.conv,
              Verif.Any.getTable, Verif.Any.getInt64, OutE.forget, Verif.Any.ITy.kind]
      · rcases hm with rfl | rfl | rfl | rfl | rfl | rfl | rfl | rfl <;> cases hr
    | enumeration k lits =>
      have hb := Verif.Any.map_bad h
      simp only [TypeDef.kind] at hk
      subst hk
      obtain ⟨hm, _⟩ := ht
      simp only [List.mem_cons, List.not_mem_nil, or_false] at hm
      rcases Verif.Any.getIntE_bad ha hb with ⟨_, rfl⟩ | ⟨hr, _⟩
      · right
        refine ⟨rfl, ?_, ?_⟩
        · have hf := Verif.Any.getIntE_forget .i32 ⟨k, v⟩
          rw [hb] at hf
          rcases hm with rfl | rfl | rfl | rfl <;> cases v <;>
            simp_all [Any.Ok, Verif.Any.Kind.Range, getInt, Kind.int, Verif.Any.conv,
              Verif.Any.getTable, Verif.Any.getInt32, OutE.forget, TypeDef.kind]
        · have hf := Verif.Any.getIntE_forget .i32 ⟨k, v⟩
          rw [hb] at hf
          rcases hm with rfl | rfl | rfl | rfl <;> cases v <;>
            simp_all [Any.Ok, Verif.Any.Kind.Range, getInt, Kind.int, Verif.Any.conv,
              Verif.Any.getTable, Verif.Any.getInt32, OutE.forget, Verif.Any.ITy.kind]
      · rcases hm with rfl | rfl | rfl | rfl <;> cases hr
    | float k lo hi li hi' =>
      have hb := Verif.Any.map_bad h
      simp only [TypeDef.kind] at hk
      subst hk
      rcases ht with rfl | rfl <;> cases v <;> simp [Any.Ok, Verif.Any.Kind.Range] at ha <;> cases hb
    | string len =>
      have hb := Verif.Any.map_bad h
      simp only [TypeDef.kind] at hk
      subst hk
      cases v <;> simp [Any.Ok, Verif.Any.Kind.Range] at ha
      cases hb
    | _ => cases h

/-- What goes wrong in the `InvalidAnyType` of a request: the two kinds are in the wrong order, or the
kind is right and the exception is the one of the conversion inside the check. -/
def Wrong (f : Facts) (c : QCall) (r : Report) : Prop :=
  ∃ v k, f.passes c v k ∧
    ((v.type ≠ k ∧ r = ⟨v.type, k⟩) ∨
     (v.type = k ∧ k = .UInt64 ∧ r = ⟨.Int64, .UInt64⟩) ∨
     (v.type = k ∧ k = .Int64 ∧ r = ⟨.Int32, .Int64⟩))

theorem wrong_of {f : Facts} {c : QCall} {v : Any} {t : TypeDef} {r : Report} (ht : TypeOk t)
    (ha : v.Ok) (h : isValidE t v = .bad r) (hp : f.passes c v t.kind) : Wrong f c r :=
  ⟨v, t.kind, hp, isValidE_bad ht ha h⟩

theorem kindOf_eq {R : Registry} {u : Uuid} {t : TypeDef} (h : getType R u = some t) :
    kindOf R u = t.kind := by simp [kindOf, h]

theorem isValidE_ub {t : TypeDef} {a : Any} (h : isValidE t a = .ub) : isValid t a = .ub := by
  rw [← isValidE_forget, h]; rfl

/-- The value of a call fits in its C++ type. -/
def QCall.Ok : QCall → Prop
  | .set _ v => v.Ok
  | .setReturn v => v.Ok
  | _ => True

theorem getInt_not_ub (T : Verif.Any.ITy) (a : Any) : T = .i64 ∨ T = .i32 → getInt T a ≠ .ub := by
  intro hT h
  unfold getInt at h
  split at h
  · rename_i U v h1 h2
    have : ∀ c, (∀ b, c ≠ Verif.Any.Conv.floatChecked b) →
        Verif.Any.conv U (some T) v c ≠ .ub := by
      intro c hc he
      cases c with
      | direct => cases he
      | checked =>
        simp only [Verif.Any.conv, Verif.Any.convertIntegral] at he
        split at he <;> cases he
      | float b => cases he
      | floatChecked b => exact hc b rfl
      | reject => cases he
    split at h
    · cases h
    · rename_i hu
      refine this _ ?_ hu
      intro b hb
      rcases hT with rfl | rfl <;> cases ht : a.type <;> rw [ht] at hb <;> cases hb
    · cases h
  · cases h

theorem isValid_not_ub {t : TypeDef} {a : Any} (ht : TypeOk t) (ha : a.Ok) : isValid t a ≠ .ub := by
  intro h
  unfold isValid at h
  split at h
  · cases h
  · rename_i hk
    have hk : t.kind = a.type := Decidable.not_not.1 hk
    cases t with
    | integer k lo hi =>
      simp only at h
      cases hg : getInt .i64 a with
      | ok v => rw [hg] at h; cases h
      | throw => rw [hg] at h; cases h
      | ub => exact getInt_not_ub _ _ (.inl rfl) hg
    | enumeration k lits =>
      simp only at h
      cases hg : getInt .i32 a with
      | ok v => rw [hg] at h; cases h
      | throw => rw [hg] at h; cases h
      | ub => exact getInt_not_ub _ _ (.inr rfl) hg
    | float k lo hi li hi' =>
      obtain ⟨ty, v⟩ := a
      simp only [TypeDef.kind] at hk
      subst hk
      rcases ht with rfl | rfl <;> cases v <;> simp [Any.Ok, Verif.Any.Kind.Range] at ha <;> cases h
    | string len =>
      obtain ⟨ty, v⟩ := a
      simp only [TypeDef.kind] at hk
      subst hk
      cases v <;> simp [Any.Ok, Verif.Any.Kind.Range] at ha
      cases h
    | _ => cases h

/-! ### C100 -/

/-- C100, the exceptions are those of C54, C55 and C56: leaving out what they carry, the calls raise
what Request.lean and Oper.lean say. -/
theorem C100_same (R : Registry) (o : Oper) (r : Req) (g : Getter) (q : Setter) (i : Int) (v : Any) :
    (r.set R i v).2 = ((r.raises R o (.set i v)).map REx.res).getD .ok ∧
    (r.get i = none ↔ r.raises R o (.get i) ≠ none) ∧
    (r.setReturn R (o.ret.map Param.uuid) v).2 =
      ((r.raises R o (.setReturn v)).map REx.res).getD .ok ∧
    (r.getReturn (o.ret.map Param.uuid) = none ↔ r.raises R o .getReturn ≠ none) ∧
    ((g.setReturn R v).2 = (g.raises R (.setReturn v)).isSome) ∧
    ((q.set R i v).2 = (q.raises R (.set i v)).isSome) := by
  have hf : ∀ t, (isValidE t v).forget = isValid t v := fun t => isValidE_forget t v
  refine ⟨?_, ?_, ?_, ?_, ?_, ?_⟩
  · unfold Req.set Req.raises
    simp only
    split
    · rfl
    · cases hw : r.values[i.toNat]? with
      | none => rfl
      | some w =>
        obtain ⟨w, u⟩ := w
        simp only
        cases hg : getType R u with
        | none => rfl
        | some t =>
          simp only
          rw [← hf t]
          cases isValidE t v with
          | bad e => rfl
          | ub => rfl
          | ok b =>
            cases b with
            | true => rfl
            | false =>
              simp only [OutE.forget]
              cases hx : r.indexes.find? (fun e => (e.2 : Int) == i) with
              | none =>
                rw [if_neg]
                · rfl
                · rw [List.any_eq_true]
                  rintro ⟨e, he, hi⟩
                  exact List.find?_eq_none.1 hx e he hi
              | some e =>
                rw [if_pos]
                · rfl
                · rw [List.any_eq_true]
                  have := List.find?_some hx
                  exact ⟨e, List.mem_of_find?_eq_some hx, this⟩
  · unfold Req.get Req.raises
    simp only
    split
    · simp
    · rename_i hi
      have : i.toNat < r.values.length := by omega
      simp [this]
  · unfold Req.setReturn Req.raises
    cases ho : o.ret with
    | none => rfl
    | some p =>
      simp only [Option.map_some]
      cases hg : getType R p.uuid with
      | none => rfl
      | some t =>
        simp only
        rw [← hf t]
        cases isValidE t v with
        | bad e => rfl
        | ub => rfl
        | ok b => cases b <;> rfl
  · unfold Req.getReturn Req.raises
    cases ho : o.ret <;> simp
  · unfold Getter.setReturn Getter.raises validFor
    simp only
    cases hg : getType R g.prop.uuid with
    | none => rfl
    | some t =>
      simp only
      rw [← hf t]
      cases isValidE t v with
      | bad e => rfl
      | ub => rfl
      | ok b => cases b <;> rfl
  · unfold Setter.set Setter.raises validFor
    simp only
    split
    · rfl
    · cases hg : getType R q.prop.uuid with
      | none => rfl
      | some t =>
        simp only
        rw [← hf t]
        cases isValidE t v with
        | bad e => rfl
        | ub => rfl
        | ok b => cases b <;> rfl

/-- **C100**, requests of operations, as far as it is true. Whatever calls were made before, an
exception raised by a call names the operation, the index and the number of parameters, the
parameter whose index was given and the value passed as they are; `InvalidAnyType` however always
says something wrong (`Wrong`). Missing: `InvalidAnyType` (`C100_request_fails`). -/
theorem C100_request_partial (R : Registry) (ps : List (Str × Uuid))
    (hn : (ps.map Prod.fst).Nodup) (cs : List RCall) (o : Oper) (c : QCall) (e : REx)
    (hreg : ∀ p ∈ ps, ∃ t, getType (rrun (R, build ps) cs).1 p.2 = some t ∧ TypeOk t)
    (hret : ∀ p, o.ret = some p →
      ∃ t, getType (rrun (R, build ps) cs).1 p.uuid = some t ∧ TypeOk t)
    (hc : c.Ok)
    (h : (rrun (R, build ps) cs).2.raises (rrun (R, build ps) cs).1 o c = some e) :
    ((∀ r, e ≠ .anyType r) ∧ Tells (Req.facts (rrun (R, build ps) cs).1 o ps) c e) ∨
    (∃ r, e = .anyType r ∧ Wrong (Req.facts (rrun (R, build ps) cs).1 o ps) c r) := by
  have hof : (rrun (R, build ps) cs).2.Of ps := of_rrun cs (s := (R, build ps)) (of_build hn)
  generalize rrun (R, build ps) cs = s at *
  obtain ⟨R, r⟩ := s
  simp only at *
  have hlen : r.values.length = ps.length := by
    have := congrArg List.length hof.types; simpa using this
  cases c with
  | get i =>
    simp only [Req.raises] at h
    split at h
    · rename_i hi
      cases h
      refine .inl ⟨by simp, rfl, by simp [Req.facts, hlen], .inl rfl, ?_⟩
      show ¬ (0 ≤ i ∧ i < (ps.length : Int))
      omega
    · cases h
  | getReturn =>
    simp only [Req.raises] at h
    cases ho : o.ret with
    | none =>
      rw [ho] at h
      cases h
      exact .inl ⟨by simp, .inr rfl, rfl, by simp [Req.facts, ho]⟩
    | some p => rw [ho] at h; cases h
  | setReturn v =>
    simp only [Req.raises] at h
    cases ho : o.ret with
    | none =>
      rw [ho] at h
      cases h
      exact .inl ⟨by simp, .inl ⟨v, rfl⟩, rfl, by simp [Req.facts, ho]⟩
    | some p =>
      rw [ho] at h
      obtain ⟨t, ht, hok⟩ := hret p ho
      simp only [ht] at h
      cases hv : isValidE t v with
      | bad x =>
        rw [hv] at h
        cases h
        refine .inr ⟨x, rfl, wrong_of hok hc hv (.inr ⟨rfl, ?_⟩)⟩
        simp [Req.facts, ho, kindOf_eq ht]
      | ub => exact absurd (isValidE_ub hv) (isValid_not_ub hok hc)
      | ok b =>
        rw [hv] at h
        cases b with
        | true => cases h
        | false =>
          cases h
          exact .inl ⟨by simp, rfl, rfl⟩
  | set i v =>
    simp only [Req.raises] at h
    split at h
    · rename_i hi
      cases h
      refine .inl ⟨by simp, rfl, by simp [Req.facts, hlen], .inr ⟨v, rfl⟩, ?_⟩
      show ¬ (0 ≤ i ∧ i < (ps.length : Int))
      omega
    · rename_i hi
      have hlt : i.toNat < ps.length := by omega
      have hu : r.values[i.toNat]?.map Prod.snd = some ps[i.toNat].2 := by
        rw [← List.getElem?_map, hof.types]; simp [hlt]
      cases hw : r.values[i.toNat]? with
      | none => rw [hw] at hu; cases hu
      | some w =>
        obtain ⟨w, u⟩ := w
        rw [hw] at h hu
        simp only [Option.map_some, Option.some.injEq] at hu h
        obtain ⟨t, ht, hok⟩ := hreg _ (List.getElem_mem hlt)
        rw [hu, ht] at h
        simp only at h
        have hfp : (Req.facts R o ps).param i = some (ps[i.toNat].1, t.kind) := by
          show (if i < 0 then none else ps[i.toNat]?.map _) = _
          rw [if_neg (by omega)]
          simp [hlt, kindOf_eq ht]
        cases hv : isValidE t v with
        | bad x =>
          rw [hv] at h
          cases h
          exact .inr ⟨x, rfl, wrong_of hok hc hv (.inl ⟨i, _, rfl, hfp⟩)⟩
        | ub => exact absurd (isValidE_ub hv) (isValid_not_ub hok hc)
        | ok b =>
          rw [hv] at h
          cases b with
          | true => cases h
          | false =>
            simp only at h
            cases hx : r.indexes.find? (fun e => (e.2 : Int) == i) with
            | none =>
              exfalso
              have := List.find?_eq_none.1 hx (ps[i.toNat].1, i.toNat) (by
                rw [hof.indexes]; exact List.mem_mapIdx.2 ⟨i.toNat, hlt, rfl⟩)
              apply this
              simp; omega
            | some x =>
              rw [hx] at h
              cases h
              have hm := List.mem_of_find?_eq_some hx
              have hi' := List.find?_some hx
              rw [hof.indexes] at hm
              obtain ⟨j, hj, hje⟩ := List.mem_mapIdx.1 hm
              subst hje
              have hij : j = i.toNat := by
                have : ((j : Nat) : Int) = i := by simpa using hi'
                omega
              subst hij
              exact .inl ⟨by simp, i, t.kind, rfl, hfp⟩

/-- **C100**, requests to read or write a property, as far as it is true: whatever name of the
operation and number of parameters an exception reports, what else it says is true, except
`InvalidAnyType`. Missing: the name of the operation (the exceptions give the name of the property, the
request `get_` or `set_` followed by it), the number of parameters of a setter, and `InvalidAnyType`
(`C100_property_fails`). -/
theorem C100_property_partial (R : Registry) (g : Getter) (q : Setter) (t : TypeDef) (c : QCall)
    (e : REx) (hc : c.Ok) (ht : TypeOk t) :
    (getType R g.prop.uuid = some t → g.raises R c = some e →
      ((∀ r, e ≠ .anyType r) ∧ Tells { g.facts R with opName := g.prop.name } c e) ∨
      (∃ r, e = .anyType r ∧ Wrong (g.facts R) c r)) ∧
    (getType R q.prop.uuid = some t → q.raises R c = some e →
      ((∀ r, e ≠ .anyType r) ∧ (∀ i n op, e = .index op i n → n = 0 ∧ i ≠ 0 ∧ op = q.prop.name ∧
          (c = .get i ∨ ∃ v, c = .set i v)) ∧
        ((∀ i n op, e ≠ .index op i n) → Tells { q.facts R with opName := q.prop.name } c e)) ∨
      (∃ r, e = .anyType r ∧ Wrong (q.facts R) c r)) := by
  constructor
  · intro hg h
    cases c with
    | get i =>
      cases h
      exact .inl ⟨by simp, rfl, rfl, .inl rfl, by show ¬ (0 ≤ i ∧ i < 0); omega⟩
    | set i v =>
      cases h
      exact .inl ⟨by simp, rfl, rfl, .inr ⟨v, rfl⟩, by show ¬ (0 ≤ i ∧ i < 0); omega⟩
    | getReturn => cases h
    | setReturn v =>
      simp only [Getter.raises, hg] at h
      cases hv : isValidE t v with
      | bad x =>
        rw [hv] at h
        cases h
        exact .inr ⟨x, rfl, wrong_of ht hc hv (.inr ⟨rfl, by simp [Getter.facts, kindOf_eq hg]⟩)⟩
      | ub => exact absurd (isValidE_ub hv) (isValid_not_ub ht hc)
      | ok b =>
        rw [hv] at h
        cases b with
        | true => cases h
        | false => cases h; exact .inl ⟨by simp, rfl, rfl⟩
  · intro hg h
    cases c with
    | get i =>
      simp only [Setter.raises] at h
      split at h
      · rename_i hi
        cases h
        refine .inl ⟨by simp, ?_, fun hne => absurd rfl (hne _ _ _)⟩
        intro i' n op he
        cases he
        exact ⟨rfl, hi, rfl, .inl rfl⟩
      · cases h
    | getReturn =>
      cases h
      exact .inl ⟨by simp, by simp, fun _ => ⟨.inr rfl, rfl, rfl⟩⟩
    | setReturn v =>
      cases h
      exact .inl ⟨by simp, by simp, fun _ => ⟨.inl ⟨v, rfl⟩, rfl, rfl⟩⟩
    | set i v =>
      simp only [Setter.raises] at h
      split at h
      · rename_i hi
        cases h
        refine .inl ⟨by simp, ?_, fun hne => absurd rfl (hne _ _ _)⟩
        intro i' n op he
        cases he
        exact ⟨rfl, hi, rfl, .inr ⟨v, rfl⟩⟩
      · rename_i hi
        have hi : i = 0 := Decidable.not_not.1 hi
        subst hi
        simp only [hg] at h
        cases hv : isValidE t v with
        | bad x =>
          rw [hv] at h
          cases h
          exact .inr ⟨x, rfl, wrong_of ht hc hv (.inl ⟨0, _, rfl, by
            simp [Setter.facts, kindOf_eq hg]; rfl⟩)⟩
        | ub => exact absurd (isValidE_ub hv) (isValid_not_ub ht hc)
        | ok b =>
          rw [hv] at h
          cases b with
          | true => cases h
          | false =>
            cases h
            exact .inl ⟨by simp, by simp, fun _ => ⟨0, t.kind, rfl, by
              simp [Setter.facts, kindOf_eq hg]⟩⟩

/-- What an exception of `Operation::Invoke` says is true of the operation and of the request. -/
def InvokeTells (R : Registry) (o : Oper) (dynamic : Bool) (q : Option IReq) : REx → Prop
  | .operationName n =>
      (∃ r, q = some r ∧ r.opName = some n ∧ (n ≠ o.name ∨ dynamic = false)) ∨
      (n = "<null>".toList ∧ ∀ r, q = some r → r.opName = none)
  | .count op a b => ∃ r, q = some r ∧ op = o.name ∧ a = o.params.length ∧ b = r.count ∧ a ≠ b
  | .parameterType op p invalid expected => ∃ r, q = some r ∧ op = o.name ∧
      ∃ d ∈ o.params, d.name = p ∧ d.dir ≠ .out ∧ kindOf R d.uuid = expected ∧
        ∃ v, r.value (r.index (some p)) = some v ∧ v.type = invalid ∧ invalid ≠ expected
  | _ => False

theorem checkParamsE_tells {R : Registry} {op : Str} {r : IReq} {ps : List Param} {e : REx}
    (h : checkParamsE R op r ps = some e) :
    ∃ d ∈ ps, d.dir ≠ .out ∧ ∃ v, r.value (r.index (some d.name)) = some v ∧
      v.type ≠ kindOf R d.uuid ∧ e = .parameterType op d.name v.type (kindOf R d.uuid) := by
  induction ps with
  | nil => cases h
  | cons p ps ih =>
    have tail : checkParamsE R op r ps = some e → ∃ d ∈ p :: ps, d.dir ≠ .out ∧
        ∃ v, r.value (r.index (some d.name)) = some v ∧
          v.type ≠ kindOf R d.uuid ∧ e = .parameterType op d.name v.type (kindOf R d.uuid) := by
      intro h
      obtain ⟨d, hd, rest⟩ := ih h
      exact ⟨d, List.mem_cons_of_mem _ hd, rest⟩
    unfold checkParamsE at h
    split at h
    · exact tail h
    · rename_i hd
      split at h
      · cases h
      · rename_i v hv
        split at h
        · rename_i hk
          cases h
          exact ⟨p, List.mem_cons_self, hd, v, hv, hk, rfl⟩
        · exact tail h

/-- **C100**, invocation. Every exception `Operation::Invoke` raises itself says the truth: the name
given, the numbers of parameters (an `Int32`), the parameter and the two kinds. -/
theorem C100_invoke (R : Registry) (o : Oper) (dynamic : Bool) (q : Option IReq) (e : REx)
    (hl : o.params.length < 2 ^ 31)
    (h : o.invokeRaises R dynamic q = some e) : InvokeTells R o dynamic q e := by
  cases q with
  | none => cases h; exact .inr ⟨rfl, by simp⟩
  | some r =>
    simp only [Oper.invokeRaises] at h
    split at h
    · rename_i hn
      cases h
      cases ho : r.opName with
      | none => exact .inr ⟨by simp [nullCheck], by intro r' hr; cases hr; exact ho⟩
      | some n =>
        refine .inl ⟨r, rfl, by rw [ho]; rfl, .inl ?_⟩
        intro he
        apply hn
        rw [ho]
        exact congrArg some he
    · rename_i hn
      have hn : r.opName = some o.name := Decidable.not_not.1 hn
      split at h
      · rename_i hd
        cases h
        refine .inl ⟨r, rfl, by rw [hn]; rfl, .inr ?_⟩
        cases dynamic <;> simp_all
      · split at h
        · rename_i hc
          cases h
          refine ⟨r, rfl, rfl, rfl, rfl, ?_⟩
          intro he
          apply hc
          rw [← he]
          unfold toSize
          omega
        · obtain ⟨d, hd, hdir, v, hv, hne, rfl⟩ := checkParamsE_tells h
          exact ⟨r, rfl, rfl, d, hd, rfl, hdir, rfl, v, hv, rfl, hne⟩

/-- A request with the parameters `n`, an integer from 0 to 10, and `m`, an enumeration. -/
def repS : Registry × Req := (run initial demoOps, build [("n".toList, 100), ("m".toList, 102)])

/-- **C100**, the claim does not hold of the requests of operations: passing an `Int64` for a parameter
of kind `Int32` raises an exception that says that `Int64` was expected and `Int32` is invalid. -/
theorem C100_request_fails :
    ∃ r, repS.2.raises repS.1 demoOper (.set 0 ⟨.Int64, .int 1⟩) = some (.anyType r) ∧
      r = ⟨.Int64, .Int32⟩ ∧
      ¬ Tells (Req.facts repS.1 demoOper [("n".toList, 100), ("m".toList, 102)])
        (.set 0 ⟨.Int64, .int 1⟩) (.anyType r) := by
  refine ⟨⟨.Int64, .Int32⟩, by decide, rfl, ?_⟩
  rintro ⟨v, k, hp, hne, he, hi⟩
  rcases hp with ⟨i, p, hc, _⟩ | ⟨hc, _⟩
  · cases hc; cases hi
  · cases hc

/-- **C100**, the claim does not hold of the requests of a property `x`: asking a request to write it
for its second parameter raises an exception that says that it has no parameter at all, and that it
is for the operation `x`; it has one, and is for the operation `set_x`. -/
theorem C100_property_fails :
    (Setter.mk ⟨"x".toList, 100, .readWrite⟩ noValue).raises repS.1 (.get 1) =
      some (.index "x".toList 1 0) ∧
    (Setter.mk ⟨"x".toList, 100, .readWrite⟩ noValue).count = 1 ∧
    (Setter.mk ⟨"x".toList, 100, .readWrite⟩ noValue).opName = "set_x".toList ∧
    (Getter.mk ⟨"x".toList, 100, .readWrite⟩ noValue).raises repS.1 (.get 0) =
      some (.index "x".toList 0 0) ∧
    (Getter.mk ⟨"x".toList, 100, .readWrite⟩ noValue).opName = "get_x".toList ∧
    ¬ Tells ((Setter.mk ⟨"x".toList, 100, .readWrite⟩ noValue).facts repS.1) (.get 1)
      (.index "x".toList 1 0) ∧
    ¬ Tells ((Getter.mk ⟨"x".toList, 100, .readWrite⟩ noValue).facts repS.1) (.get 0)
      (.index "x".toList 0 0) := by
  refine ⟨by decide, rfl, rfl, rfl, rfl, ?_, ?_⟩
  · rintro ⟨h, _⟩; exact absurd h (by decide)
  · rintro ⟨h, _⟩; exact absurd h (by decide)

/-- **C100**, a parameter the request does not know: the exception is named after the parameter and has
no message, whatever the names; what it should say is its description. -/
theorem C100_missing_fails (name op : Str) :
    (noParameter name op).message = [] ∧ (noParameter name op).name = name ∧
    (noParameter name op).description =
      "No Parameter named ".toList ++ name ++ " in Operation ".toList ++ op ++ ".".toList ∧
    (∃ a b, (noParameter name op).what = a ++ op ++ b) := by
  refine ⟨rfl, rfl, rfl, name ++ "(".toList ++ ("No Parameter named ".toList ++ name ++
    " in Operation ".toList), ".".toList ++ "): ".toList ++ [], ?_⟩
  simp only [noParameter, throwException, Plain3.what, formatString, List.append_assoc,
    List.flatten_cons, List.flatten_nil, List.append_nil]

/-- The exceptions of a request, of a property and of an operation. -/
example :
    repS.2.raises repS.1 demoOper (.set 0 ⟨.Int32, .int 11⟩) =
      some (.value "n".toList ⟨.Int32, .int 11⟩) ∧
    repS.2.raises repS.1 demoOper (.set 2 ⟨.Int32, .int 11⟩) = some (.index "f".toList 2 2) ∧
    repS.2.raises repS.1 demoOper (.set 0 ⟨.Int32, .int 10⟩) = none ∧
    repS.2.raises repS.1 { demoOper with ret := none } .getReturn = some (.void "f".toList) ∧
    (Setter.mk ⟨"x".toList, 100, .readWrite⟩ noValue).raises repS.1 (.set 0 ⟨.Int32, .int 11⟩) =
      some (.value "x".toList ⟨.Int32, .int 11⟩) ∧
    demoOper.invokeRaises repS.1 true (some (repS.2.iface demoOper)) =
      some (.parameterType "f".toList "n".toList .None .Int32) ∧
    demoOper.invokeRaises repS.1 true none = some (.operationName "<null>".toList) := by decide
example : (∀ p ∈ [("n".toList, 100), ("m".toList, 102)], ∃ t, getType repS.1 p.2 = some t ∧ TypeOk t) ∧
    QCall.Ok (.set 0 ⟨.Int32, .int 11⟩) := by
  refine ⟨?_, by simp [QCall.Ok, Any.Ok, Verif.Any.Kind.Range]⟩
  intro p hp
  simp only [List.mem_cons, List.not_mem_nil, or_false] at hp
  rcases hp with rfl | rfl
  · exact ⟨_, rfl, by decide, by simp [I64], by simp [I64]⟩
  · exact ⟨_, rfl, by decide, by simp [I32]⟩

end Verif.Pub
