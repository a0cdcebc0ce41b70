import Verif.Example.Model
import Verif.Any.Props
import Verif.Pub.OperProps

/-! Property C102: the counters of the example project. -/
namespace Verif.Example
open Verif.Any (Kind Fl Val Any Out)
open Verif.Path (Str)
open Verif.Pub
open Verif.Gen (Ends)
open Verif.Field (coerce)

/-! ### Specification -/

/-- A number an `Int32` can have. -/
def I32 (n : Int) : Prop := -2147483648 ≤ n ∧ n ≤ 2147483647

instance (n : Int) : Decidable (I32 n) := inferInstanceAs (Decidable (_ ∧ _))

/-- The number an `AnySimple` gives an `Int32`: that of an integer of any kind, if it fits. -/
def asInt32 (v : Any) : Option Int :=
  match v.type.int, v.value with
  | some _, .int n => if I32 n then some n else none
  | _, _ => none

/-- What a call assigns to the counter `c`: a reset 0, a write of the field its value, a write of
the property `count` of the manager an `Int32`, if the manager holds the counter. -/
def assigned (counters : List Nat) (c : Nat) : Act → Option Int
  | .invoke d q => if d = c ∧ q.opName = "ResetCount".toList then some 0 else none
  | .write d v => if d = c then asInt32 v else none
  | .set p v =>
    if p = "count".toList ∧ c ∈ counters ∧ v.type = .Int32 then asInt32 v else none
  | _ => none

/-- What a call adds to the counter `c`. -/
def added (c : Nat) : Act → Int
  | .execute d => if d = c then 1 else 0
  | .notify d v => if d = c then (asInt32 v).getD 0 else 0
  | _ => 0

/-- The values given in a call are well-formed. -/
def Act.Ok : Act → Prop
  | .notify _ v => v.Ok
  | .write _ v => v.Ok
  | .set _ v => v.Ok
  | _ => True

/-- The registry knows the primitive types of the properties. -/
def Known (R : Registry) : Prop :=
  getType R (primUuid .Int32) = some (.primitive .Int32) ∧
  getType R (primUuid .Float64) = some (.primitive .Float64)

/-- The registry as it is constructed knows them. -/
example : Known initial := by unfold Known; exact ⟨rfl, rfl⟩

/-- Counters are `Int32`. -/
def World.Ok (w : World) : Prop := ∀ c, I32 (w.count c)

/-! ### Lemmas -/

theorem i32_eq (n : Int) : i32 n = if I32 n then some n else none := rfl

theorem coerce_int32 (narrow : Fl → Fl) (v : Any) (h : v.Ok) :
    coerce narrow .Int32 0 v = match asInt32 v with
      | some n => .ok (.int n)
      | none => .throw := by
  obtain ⟨k, x⟩ := v
  show (Any.getInt .i32 ⟨k, x⟩).map Val.int = _
  unfold asInt32
  cases hk : k.int with
  | none =>
    rw [(Any.C50_other narrow ⟨k, x⟩ .i32 0).1 hk]
    simp only [hk]
    rfl
  | some U =>
    have hi : k.isInt := by simp [Any.Kind.isInt, hk]
    obtain ⟨n, rfl, hn⟩ := Any.ok_int h hi
    obtain ⟨h1, h2⟩ := Any.C50_get k n .i32 hi hn
    have e : Any.ITy.Range .i32 n ↔ I32 n := by
      simp [Any.ITy.Range, Any.ITy.kind, Any.Kind.Range, I32]
      try omega
    simp only [hk]
    by_cases hr : I32 n
    · rw [h1 (e.2 hr), if_pos hr]; rfl
    · rw [h2 (fun x => hr (e.1 x)), if_neg hr]; rfl

theorem publish_eq (R : Registry) (h : Known R) : (publish R).props =
    [⟨"sum".toList, primUuid .Int32, .readOnly⟩, ⟨"average".toList, primUuid .Float64, .readOnly⟩,
     ⟨"count".toList, primUuid .Int32, .writeOnly⟩] := by
  have n1 : Path.checkName (some "sum".toList) = .ok "sum".toList := by decide +kernel
  have n2 : Path.checkName (some "average".toList) = .ok "average".toList := by decide +kernel
  have n3 : Path.checkName (some "count".toList) = .ok "count".toList := by decide +kernel
  have e1 : Pubn.publishProperty R ⟨[], []⟩ (some "sum".toList) (primUuid .Int32) .readOnly =
      (⟨[], [⟨"sum".toList, primUuid .Int32, .readOnly⟩]⟩, none) := by
    unfold Pubn.publishProperty; rw [h.1, n1]; rfl
  have e2 : Pubn.publishProperty R ⟨[], [⟨"sum".toList, primUuid .Int32, .readOnly⟩]⟩
      (some "average".toList) (primUuid .Float64) .readOnly =
      (⟨[], [⟨"sum".toList, primUuid .Int32, .readOnly⟩,
        ⟨"average".toList, primUuid .Float64, .readOnly⟩]⟩, none) := by
    unfold Pubn.publishProperty; rw [h.2, n2]; rfl
  have e3 : Pubn.publishProperty R ⟨[], [⟨"sum".toList, primUuid .Int32, .readOnly⟩,
        ⟨"average".toList, primUuid .Float64, .readOnly⟩]⟩
      (some "count".toList) (primUuid .Int32) .writeOnly =
      (⟨[], [⟨"sum".toList, primUuid .Int32, .readOnly⟩,
        ⟨"average".toList, primUuid .Float64, .readOnly⟩,
        ⟨"count".toList, primUuid .Int32, .writeOnly⟩]⟩, none) := by
    unfold Pubn.publishProperty; rw [h.1, n3]; rfl
  unfold publish
  simp only [e1, e2, e3]

theorem propOf_sum (R : Registry) (h : Known R) : Gen.propOf (publish R) "sum".toList =
    some ⟨"sum".toList, primUuid .Int32, .readOnly⟩ := by
  unfold Gen.propOf; rw [publish_eq R h]; rfl

theorem propOf_average (R : Registry) (h : Known R) : Gen.propOf (publish R) "average".toList =
    some ⟨"average".toList, primUuid .Float64, .readOnly⟩ := by
  unfold Gen.propOf; rw [publish_eq R h]; rfl

theorem propOf_count (R : Registry) (h : Known R) : Gen.propOf (publish R) "count".toList =
    some ⟨"count".toList, primUuid .Int32, .writeOnly⟩ := by
  unfold Gen.propOf; rw [publish_eq R h]; rfl

theorem propOf_other (R : Registry) (h : Known R) (n : Str) (hn : n ≠ "count".toList) :
    Gen.propOf (publish R) n = none ∨
    ∃ p, Gen.propOf (publish R) n = some p ∧ p.access = .readOnly := by
  unfold Gen.propOf
  rw [publish_eq R h]
  by_cases h1 : "sum".toList = n
  · subst h1; exact Or.inr ⟨_, rfl, rfl⟩
  · by_cases h2 : "average".toList = n
    · subst h2; exact Or.inr ⟨_, rfl, rfl⟩
    · left
      rw [List.find?_eq_none]
      intro p hp
      simp only [List.mem_cons, List.not_mem_nil, or_false] at hp
      rcases hp with rfl | rfl | rfl
      · simpa using h1
      · simpa using h2
      · simpa using fun h => hn h.symm

theorem foldl_store (v : Int) : ∀ (l : List Nat) (w : World),
    (l.foldl (fun u c => u.store c v) w).counters = w.counters ∧
    ∀ c, (l.foldl (fun u c => u.store c v) w).count c = if c ∈ l then v else w.count c := by
  intro l
  induction l with
  | nil => intro w; exact ⟨rfl, fun c => by simp⟩
  | cons d l ih =>
    intro w
    obtain ⟨h1, h2⟩ := ih (w.store d v)
    refine ⟨h1, fun c => ?_⟩
    rw [List.foldl_cons, h2]
    by_cases hc : c ∈ l
    · rw [if_pos hc, if_pos (List.mem_cons_of_mem _ hc)]
    · rw [if_neg hc]
      by_cases hd : c = d
      · subst hd; simp [World.store]
      · simp [World.store, hc, hd]

theorem setValue_count (narrow : Fl → Fl) (rnd : Rat → Fl) (R : Registry) (h : Known R)
    (w : World) (v : Any) (hv : v.Ok) :
    setValue narrow rnd R w ⟨"count".toList, primUuid .Int32, .writeOnly⟩ v =
      if v.type = .Int32 then match asInt32 v with
        | some n => (setCount w n, .ok)
        | none => (w, .raised)
      else (w, .raised) := by
  unfold setValue
  rw [if_neg (by decide)]
  have hvalid : validFor R (primUuid .Int32) v = if v.type = .Int32 then .ok true else .throw := by
    unfold validFor isValid
    rw [h.1]
    show (if (TypeDef.primitive .Int32).kind ≠ v.type then _ else _) = _
    have hk : (TypeDef.primitive .Int32).kind = .Int32 := rfl
    by_cases ht : v.type = .Int32
    · rw [if_pos ht, if_neg (by rw [hk, ht]; exact fun g => g rfl)]
    · rw [if_neg ht, if_pos (by rw [hk]; exact fun g => ht g.symm)]
  simp only [hvalid]
  by_cases ht : v.type = .Int32
  · simp only [if_pos ht]
    have hp : Gen.param narrow (.setter ⟨⟨"count".toList, primUuid .Int32, .writeOnly⟩, v⟩)
        "count".toList ⟨false, 0, .Int32, 0⟩ = coerce narrow .Int32 0 v := by
      unfold Gen.param Gen.index Gen.value
      simp [ht]
    have hi : managerInvoke narrow rnd R w
        (.setter ⟨⟨"count".toList, primUuid .Int32, .writeOnly⟩, v⟩) =
        Handler.run narrow rnd R w (.setter ⟨⟨"count".toList, primUuid .Int32, .writeOnly⟩, v⟩)
          .setCount := rfl
    rw [hi]
    unfold Handler.run
    rw [hp, coerce_int32 narrow v hv]
    cases asInt32 v <;> rfl
  · simp only [if_neg ht]

theorem act_set (narrow : Fl → Fl) (rnd : Rat → Fl) (R : Registry) (w : World) (n : Str)
    (v : Any) : act narrow rnd R w (.set n v) = match Gen.propOf (publish R) n with
      | none => some w
      | some p => match setValue narrow rnd R w p v with
        | (_, .ub) => none
        | (w', _) => some w' := rfl

/-- One call: what it leaves in the counters, and when it is undefined. -/
theorem act_spec (narrow : Fl → Fl) (rnd : Rat → Fl) (R : Registry) (h : Known R) (w : World)
    (a : Act) (ha : a.Ok) (hw : w.Ok) :
    (∀ w', act narrow rnd R w a = some w' → w'.Ok ∧ w'.counters = w.counters ∧
      ∀ c, w'.count c = (assigned w.counters c a).getD (w.count c) + added c a) ∧
    (act narrow rnd R w a = none ↔ ∃ c, ¬ I32 (w.count c + added c a)) := by
  have none_of : ¬ ∃ c, ¬ I32 (w.count c + (0 : Int)) := by
    rintro ⟨c, hc⟩; rw [Int.add_zero] at hc; exact hc (hw c)
  have nn : ∀ u : World, (some u = none ↔ ∃ c, ¬ I32 (w.count c + (0 : Int))) :=
    fun u => ⟨fun x => (nomatch x), fun x => absurd x none_of⟩
  have plus : ∀ (d : Nat) (n : Int), (∀ w', (i32 (w.count d + n)).map (w.store d) = some w' →
      w'.Ok ∧ w'.counters = w.counters ∧ ∀ c, w'.count c = w.count c + if d = c then n else 0) ∧
      ((i32 (w.count d + n)).map (w.store d) = none ↔
        ∃ c, ¬ I32 (w.count c + if d = c then n else 0)) := by
    intro d n
    rw [i32_eq]
    by_cases hi : I32 (w.count d + n)
    · rw [if_pos hi]
      refine ⟨?_, ?_⟩
      · rintro w' hw'
        simp only [Option.map_some, Option.some.injEq] at hw'
        subst hw'
        refine ⟨?_, rfl, ?_⟩
        · intro c
          unfold World.store
          by_cases hc : c = d
          · simp only [hc, if_true]; exact hi
          · simp only [hc, if_false]; exact hw c
        · intro c
          unfold World.store
          by_cases hc : c = d
          · subst hc; simp
          · simp only [if_neg hc, if_neg (fun x : d = c => hc x.symm), Int.add_zero]
      · simp only [Option.map_some, reduceCtorEq, false_iff]
        rintro ⟨c, hc⟩
        by_cases hcd : d = c
        · subst hcd; rw [if_pos rfl] at hc; exact hc hi
        · rw [if_neg hcd, Int.add_zero] at hc; exact hc (hw c)
    · rw [if_neg hi]
      refine ⟨by simp, ?_⟩
      simp only [Option.map_none, true_iff]
      exact ⟨d, by simpa using hi⟩
  have same : w.Ok ∧ w.counters = w.counters ∧ ∀ c, w.count c = w.count c + 0 :=
    ⟨hw, rfl, fun c => (Int.add_zero _).symm⟩
  have put : ∀ (d : Nat) (n : Int), I32 n → (w.store d n).Ok := by
    intro d n hn c
    unfold World.store
    by_cases hc : c = d
    · simp only [hc, if_true]; exact hn
    · simp only [hc, if_false]; exact hw c
  have inr : ∀ v n, asInt32 v = some n → I32 n := by
    intro v n hn
    unfold asInt32 at hn
    split at hn
    · split at hn
      · cases hn; assumption
      · cases hn
    · cases hn
  cases a with
  | execute d =>
    exact plus d 1
  | notify d v =>
    unfold act
    simp only [coerce_int32 narrow v ha, assigned, added, Option.getD_none]
    cases hv : asInt32 v with
    | some n => exact plus d n
    | none =>
      have e : ∀ c : Nat, (if d = c then (Option.getD none 0 : Int) else 0) = 0 := by
        intro c; split <;> rfl
      simp only [e]
      refine ⟨fun w' hw' => ?_, nn _⟩
      cases hw'; exact same
  | invoke d q =>
    unfold act counterInvoke
    simp only [added]
    refine ⟨fun w' hw' => ?_, nn _⟩
    cases hw'
    by_cases hq : q.opName = "ResetCount".toList
    · rw [if_pos hq]
      refine ⟨put d 0 (by decide), rfl, fun c => ?_⟩
      show (if c = d then 0 else w.count c) = (if d = c ∧ q.opName = "ResetCount".toList
        then some 0 else none).getD (w.count c) + 0
      by_cases hc : c = d
      · rw [if_pos hc, if_pos ⟨hc.symm, hq⟩]; rfl
      · rw [if_neg hc, if_neg (fun x => hc x.1.symm), Int.add_zero]; rfl
    · rw [if_neg hq]
      refine ⟨hw, rfl, fun c => ?_⟩
      show w.count c = (if d = c ∧ q.opName = "ResetCount".toList
        then some 0 else none).getD (w.count c) + 0
      rw [if_neg (fun x => hq x.2), Int.add_zero]; rfl
  | write d v =>
    unfold act
    simp only [coerce_int32 narrow v ha, added]
    cases hv : asInt32 v with
    | some n =>
      refine ⟨fun w' hw' => ?_, nn _⟩
      cases hw'
      refine ⟨put d n (inr v n hv), rfl, fun c => ?_⟩
      show (if c = d then n else w.count c) = (if d = c then asInt32 v else none).getD
        (w.count c) + 0
      by_cases hc : c = d
      · rw [if_pos hc, if_pos hc.symm, hv, Int.add_zero]; rfl
      · rw [if_neg hc, if_neg (fun x => hc x.symm), Int.add_zero]; rfl
    | none =>
      refine ⟨fun w' hw' => ?_, nn _⟩
      cases hw'
      refine ⟨hw, rfl, fun c => ?_⟩
      show w.count c = (if d = c then asInt32 v else none).getD (w.count c) + 0
      rw [hv, ite_self, Int.add_zero]; rfl
  | set n v =>
    simp only [added]
    by_cases hn : n = "count".toList
    · subst hn
      rw [act_set, propOf_count R h]
      simp only [setValue_count narrow rnd R h w v ha]
      by_cases ht : v.type = .Int32
      · simp only [if_pos ht]
        cases hv : asInt32 v with
        | some m =>
          refine ⟨fun w' hw' => ?_, nn _⟩
          cases hw'
          obtain ⟨h1, h2⟩ := foldl_store m w.counters w
          refine ⟨fun c => ?_, h1, fun c => ?_⟩
          · show I32 ((setCount w m).count c)
            unfold setCount; rw [h2]
            split
            · exact inr v m hv
            · exact hw c
          · show (setCount w m).count c = _
            unfold setCount; rw [h2]
            show _ = (if "count".toList = "count".toList ∧ c ∈ w.counters ∧ v.type = .Int32
              then asInt32 v else none).getD (w.count c) + 0
            by_cases hc : c ∈ w.counters
            · rw [if_pos hc, if_pos ⟨rfl, hc, ht⟩, hv, Int.add_zero]; rfl
            · rw [if_neg hc, if_neg (fun x => hc x.2.1), Int.add_zero]; rfl
        | none =>
          refine ⟨fun w' hw' => ?_, nn _⟩
          cases hw'
          refine ⟨hw, rfl, fun c => ?_⟩
          show w.count c = (if "count".toList = "count".toList ∧ c ∈ w.counters ∧ v.type = .Int32
            then asInt32 v else none).getD (w.count c) + 0
          rw [hv, ite_self, Int.add_zero]; rfl
      · simp only [if_neg ht]
        refine ⟨fun w' hw' => ?_, nn _⟩
        cases hw'
        refine ⟨hw, rfl, fun c => ?_⟩
        show w.count c = (if "count".toList = "count".toList ∧ c ∈ w.counters ∧ v.type = .Int32
          then asInt32 v else none).getD (w.count c) + 0
        rw [if_neg (fun x => ht x.2.2), Int.add_zero]; rfl
    · have e : act narrow rnd R w (.set n v) = some w := by
        rw [act_set]
        rcases propOf_other R h n hn with e | ⟨p, e, hp⟩
        · rw [e]
        · rw [e]
          unfold setValue
          simp only [hp, if_true]
      rw [e]
      refine ⟨fun w' hw' => ?_, nn _⟩
      cases hw'
      refine ⟨hw, rfl, fun c => ?_⟩
      show w.count c = (if n = "count".toList ∧ c ∈ w.counters ∧ v.type = .Int32
        then asInt32 v else none).getD (w.count c) + 0
      rw [if_neg (fun x => hn x.1), Int.add_zero]; rfl

theorem acts_ok (narrow : Fl → Fl) (rnd : Rat → Fl) (R : Registry) (h : Known R) :
    ∀ (as : List Act) (w w' : World), (∀ a ∈ as, a.Ok) → w.Ok → acts narrow rnd R w as = some w' →
      w'.Ok ∧ w'.counters = w.counters := by
  intro as
  induction as with
  | nil => intro w w' _ hw e; cases e; exact ⟨hw, rfl⟩
  | cons a as ih =>
    intro w w' ha hw e
    unfold acts at e
    obtain ⟨u, hu, e⟩ := Option.bind_eq_some_iff.1 e
    obtain ⟨h1, h2, _⟩ := (act_spec narrow rnd R h w a (ha a List.mem_cons_self) hw).1 u hu
    obtain ⟨g1, g2⟩ := ih u w' (fun b hb => ha b (List.mem_cons_of_mem _ hb)) h1 e
    exact ⟨g1, g2.trans h2⟩

theorem acts_append (narrow : Fl → Fl) (rnd : Rat → Fl) (R : Registry) (bs : List Act) :
    ∀ (as : List Act) (w : World), acts narrow rnd R w (as ++ bs) =
      (acts narrow rnd R w as).bind fun u => acts narrow rnd R u bs := by
  intro as
  induction as with
  | nil => intro w; rfl
  | cons a as ih =>
    intro w
    show (act narrow rnd R w a).bind (fun u => acts narrow rnd R u (as ++ bs)) =
      ((act narrow rnd R w a).bind fun u => acts narrow rnd R u as).bind _
    cases act narrow rnd R w a with
    | none => rfl
    | some u => exact ih u

/-! ### C102 -/

/-- **C102, counters.** After any calls, a counter holds what was assigned to it last (at first,
what it held), plus 1 for every execution of its entry point and plus every number its event sink
was notified of since. -/
theorem C102_count (narrow : Fl → Fl) (rnd : Rat → Fl) (R : Registry) (h : Known R) (w w' : World)
    (hw : w.Ok) (as : List Act) (ha : ∀ a ∈ as, a.Ok) (e : acts narrow rnd R w as = some w')
    (c : Nat) :
    ∃ (pre post : List Act) (base : Int), as = pre ++ post ∧
      (∀ a ∈ post.drop 1, assigned w.counters c a = none) ∧
      ((post.head?.bind (assigned w.counters c)) = some base ∨
        pre = [] ∧ base = w.count c ∧ ∀ a ∈ post, assigned w.counters c a = none) ∧
      w'.count c = base + (post.map (added c)).sum := by
  induction as generalizing w with
  | nil =>
    cases e
    exact ⟨[], [], _, rfl, by simp, Or.inr ⟨rfl, rfl, by simp⟩, by simp⟩
  | cons a as ih =>
    unfold acts at e
    obtain ⟨u, hu, e⟩ := Option.bind_eq_some_iff.1 e
    obtain ⟨h1, h2, h3⟩ := (act_spec narrow rnd R h w a (ha a List.mem_cons_self) hw).1 u hu
    obtain ⟨pre, post, base, g1, g2, g3, g4⟩ :=
      ih u h1 (fun b hb => ha b (List.mem_cons_of_mem _ hb)) e
    rw [h2] at g2 g3
    rcases g3 with g3 | ⟨rfl, g3, g5⟩
    · exact ⟨a :: pre, post, base, by rw [g1]; rfl, g2, Or.inl g3, g4⟩
    · rw [List.nil_append] at g1
      subst g1
      have h3c := h3 c
      cases hs : assigned w.counters c a with
      | some b =>
        refine ⟨[], a :: as, b, rfl, fun x hx => g5 x (by simpa using hx), Or.inl hs, ?_⟩
        rw [hs] at h3c
        simp only [Option.getD_some] at h3c
        rw [g4, g3, h3c, List.map_cons, List.sum_cons]; omega
      | none =>
        refine ⟨[], a :: as, w.count c, rfl, fun x hx => g5 x (by simpa using hx),
          Or.inr ⟨rfl, rfl, ?_⟩, ?_⟩
        · intro x hx
          rcases List.mem_cons.1 hx with rfl | hx
          · exact hs
          · exact g5 x hx
        · rw [hs] at h3c
          simp only [Option.getD_none] at h3c
          rw [g4, g3, h3c, List.map_cons, List.sum_cons]; omega

/-- **C102, overflow.** A call is undefined exactly if it adds to a counter what an `Int32` cannot
hold. -/
theorem C102_overflow (narrow : Fl → Fl) (rnd : Rat → Fl) (R : Registry) (h : Known R)
    (w w' : World) (hw : w.Ok) (as : List Act) (a : Act) (ha : ∀ b ∈ a :: as, b.Ok)
    (e : acts narrow rnd R w as = some w') :
    acts narrow rnd R w (as ++ [a]) = none ↔ ∃ c, ¬ I32 (w'.count c + added c a) := by
  have hok := (acts_ok narrow rnd R h as w w' (fun b hb => ha b (List.mem_cons_of_mem _ hb)) hw e).1
  rw [acts_append, e]
  show (act narrow rnd R w' a).bind (fun u => some u) = none ↔ _
  rw [← (act_spec narrow rnd R h w' a (ha a List.mem_cons_self) hok).2]
  cases act narrow rnd R w' a <;> simp

/-- The sum of the counters of the manager. -/
def total (w : World) : Int := (w.counters.map w.count).sum

/-- Every sum of the first counters is an `Int32`. -/
def Fits (w : World) : Prop := ∀ l, l <+: w.counters → I32 (l.map w.count).sum

theorem sum_snoc (l : List Int) (x : Int) : (l ++ [x]).sum = l.sum + x := by
  rw [List.sum_append]; simp

theorem getSum_eq (w : World) : (Fits w → getSum w = some (total w)) ∧
    (¬ Fits w → getSum w = none) := by
  have nil : ∀ l : List Nat, l.foldl (fun a c => a.bind fun n => i32 (n + w.count c))
      (none : Option Int) = none := by
    intro l; induction l with
    | nil => rfl
    | cons c l ih => exact ih
  have key : ∀ (l done : List Nat), done ++ l = w.counters →
      ((∀ k, k <+: l → I32 ((done ++ k).map w.count).sum) →
        l.foldl (fun a c => a.bind fun n => i32 (n + w.count c)) (some (done.map w.count).sum) =
          some ((done ++ l).map w.count).sum) ∧
      ((I32 (done.map w.count).sum ∧ ¬ ∀ k, k <+: l → I32 ((done ++ k).map w.count).sum) →
        l.foldl (fun a c => a.bind fun n => i32 (n + w.count c)) (some (done.map w.count).sum) =
          none) := by
    intro l
    induction l with
    | nil =>
      intro done hd
      refine ⟨fun _ => by simp, ?_⟩
      rintro ⟨h1, h2⟩
      refine absurd ?_ h2
      intro k hk
      rw [List.prefix_nil.1 hk, List.append_nil]; exact h1
    | cons c l ih =>
      intro done hd
      have hsum : ((done ++ [c]).map w.count).sum = (done.map w.count).sum + w.count c := by
        rw [List.map_append]; exact sum_snoc _ _
      obtain ⟨g1, g2⟩ := ih (done ++ [c]) (by rw [List.append_assoc]; exact hd)
      rw [List.foldl_cons]
      show (_ → l.foldl _ (i32 _) = _) ∧ (_ → l.foldl _ (i32 _) = _)
      rw [← hsum, i32_eq]
      constructor
      · intro hf
        rw [if_pos (hf [c] (List.prefix_iff_eq_append.2 rfl))]
        have := g1 (fun k hk => by
          rw [List.append_assoc]; exact hf (c :: k) (List.cons_prefix_cons.2 ⟨rfl, hk⟩))
        rw [this, List.append_assoc]; rfl
      · rintro ⟨h1, h2⟩
        by_cases hi : I32 ((done ++ [c]).map w.count).sum
        · rw [if_pos hi]
          refine g2 ⟨hi, fun hall => h2 fun k hk => ?_⟩
          cases k with
          | nil => rw [List.append_nil]; exact h1
          | cons d k =>
            obtain ⟨rfl, hk2⟩ := List.cons_prefix_cons.1 hk
            have := hall k hk2
            rw [List.append_assoc] at this; exact this
        · rw [if_neg hi]; exact nil l
  obtain ⟨k1, k2⟩ := key w.counters [] rfl
  exact ⟨fun h => k1 h, fun h => k2 ⟨(by decide : I32 0), h⟩⟩

/-- **C102, the sum (partial).** Reading the property `sum` of the manager gives the sum of its
counters, and changes nothing, if the sums of the first counters are `Int32`; otherwise it is
undefined. Missing: `C102_sum_fails`. -/
theorem C102_sum_partial (narrow : Fl → Fl) (rnd : Rat → Fl) (R : Registry) (h : Known R)
    (w : World) : ∃ p, Gen.propOf (publish R) "sum".toList = some p ∧
    (Fits w → getValue narrow rnd R w p = (w, .ok ⟨.Int32, .int (total w)⟩)) ∧
    (¬ Fits w → getValue narrow rnd R w p = (w, .ub)) := by
  refine ⟨_, propOf_sum R h, ?_⟩
  have hi : managerInvoke narrow rnd R w
      (.getter ⟨⟨"sum".toList, primUuid .Int32, .readOnly⟩, noValue⟩) =
      Handler.run narrow rnd R w
        (.getter ⟨⟨"sum".toList, primUuid .Int32, .readOnly⟩, noValue⟩) .getSum := rfl
  have hv : ∀ n, validFor R (primUuid .Int32) ⟨.Int32, .int n⟩ = .ok true := by
    intro n; unfold validFor; rw [h.1]; rfl
  unfold getValue
  rw [if_neg (by decide), hi]
  unfold Handler.run
  constructor
  · intro hf
    simp only [(getSum_eq w).1 hf, Gen.setReturn, hv]
  · intro hf
    simp only [(getSum_eq w).2 hf]

/-- **C102, the average (partial).** Reading the property `average` gives 0 for a manager without
counters, and otherwise the rounded quotient of the sum and the number of counters. Missing: as for
the sum. -/
theorem C102_average_partial (narrow : Fl → Fl) (rnd : Rat → Fl) (R : Registry) (h : Known R)
    (w : World) : ∃ p, Gen.propOf (publish R) "average".toList = some p ∧
    (w.counters = [] → getValue narrow rnd R w p = (w, .ok ⟨.Float64, .float (.fin 0)⟩)) ∧
    (w.counters ≠ [] → Fits w → getValue narrow rnd R w p =
      (w, .ok ⟨.Float64, .float (rnd ((total w : Rat) / (w.counters.length : Rat)))⟩)) := by
  refine ⟨_, propOf_average R h, ?_⟩
  have hi : managerInvoke narrow rnd R w
      (.getter ⟨⟨"average".toList, primUuid .Float64, .readOnly⟩, noValue⟩) =
      Handler.run narrow rnd R w
        (.getter ⟨⟨"average".toList, primUuid .Float64, .readOnly⟩, noValue⟩) .getAverage := rfl
  have hv : ∀ n, validFor R (primUuid .Float64) ⟨.Float64, .float n⟩ = .ok true := by
    intro n; unfold validFor; rw [h.2]; rfl
  unfold getValue
  rw [if_neg (by decide), hi]
  unfold Handler.run getAverage
  constructor
  · intro he
    simp only [if_pos he, Gen.setReturn, hv]
  · intro he hf
    simp only [if_neg he, (getSum_eq w).1 hf, Option.map_some, Gen.setReturn, hv]

/-- **C102, access.** `count` cannot be read; `sum` and `average` cannot be written. -/
theorem C102_access (narrow : Fl → Fl) (rnd : Rat → Fl) (R : Registry) (h : Known R) (w : World)
    (v : Any) (n : Str) (p : Prp) (hp : Gen.propOf (publish R) n = some p) :
    (n = "count".toList → getValue narrow rnd R w p = (w, .throw)) ∧
    (n ≠ "count".toList → setValue narrow rnd R w p v = (w, .raised)) := by
  constructor
  · rintro rfl
    rw [propOf_count R h] at hp
    cases hp
    rfl
  · intro hn
    rcases propOf_other R h n hn with e | ⟨q, e, hq⟩
    · rw [e] at hp; cases hp
    · rw [e] at hp; cases hp
      unfold setValue
      rw [if_pos hq]

/-- C102 fails: the sum of the counters is an `Int32` and so is each of them, but the addition
overflows on the way. -/
theorem C102_sum_fails : ∃ (w : World) (p : Prp), w.Ok ∧ I32 (total w) ∧
    Gen.propOf (publish initial) "sum".toList = some p ∧
    ∀ narrow rnd, (getValue narrow rnd initial w p).2 = .ub := by
  refine ⟨⟨[0, 1, 2], fun c => if c = 0 then 2147483647 else if c = 1 then 1 else -1⟩,
    ⟨"sum".toList, primUuid .Int32, .readOnly⟩, ?_, by decide, propOf_sum _ ⟨rfl, rfl⟩,
    fun _ _ => rfl⟩
  intro c
  show I32 (if c = 0 then _ else if c = 1 then _ else _)
  split
  · decide
  · split <;> decide

/-- Two counters: one execution, a notification of 5, the property set to 7, a further execution of
the first and a reset of the second. -/
example (narrow : Fl → Fl) (rnd : Rat → Fl) :
    ∃ w', acts narrow rnd initial ⟨[0, 1], fun _ => 0⟩
      [.execute 0, .notify 1 ⟨.UInt8, .int 5⟩, .set "count".toList ⟨.Int32, .int 7⟩,
       .execute 0, .invoke 1 (.oper ⟨"ResetCount".toList, [], none⟩ ⟨[], [], noValue⟩),
       .notify 1 ⟨.Int64, .int 40⟩, .write 1 ⟨.Int64, .int 4000000000⟩] = some w' ∧
      w'.count 0 = 8 ∧ w'.count 1 = 40 ∧ total w' = 48 :=
  ⟨_, rfl, rfl, rfl, rfl⟩

example : Fits ⟨[0, 1], fun c => if c = 0 then 8 else 40⟩ := by
  intro l hl
  rcases l with _ | ⟨a, _ | ⟨b, l⟩⟩
  · decide
  · obtain ⟨rfl, _⟩ := List.cons_prefix_cons.1 hl
    decide
  · obtain ⟨rfl, h1⟩ := List.cons_prefix_cons.1 hl
    obtain ⟨rfl, h2⟩ := List.cons_prefix_cons.1 h1
    rw [List.prefix_nil.1 h2]; decide

end Verif.Example
