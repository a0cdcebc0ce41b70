import Verif.Any.Print
import Verif.Pub.Predefined
import Verif.Pub.Request
import Verif.Pub.TypeProps

/-! Property C125: the predefined types and the enumerations of the standard. -/
namespace Verif.Pub
open Verif.Any (Kind Any Val)
open Verif.Path (Str)

/-! ### Specification -/

/-- An enumeration of the SMP standard: its C++ scope, its name, the prefix of its literals, and
what follows the prefix, in the order of the values, which start at zero. -/
structure Standard where
  scope : String
  name : String
  pre : String
  texts : List String

/-- The seven enumerations that the standard defines for models. -/
def standard : List Standard :=
  [⟨"::Smp::", "PrimitiveTypeKind", "PTK_",
    ["None", "Char8", "Bool", "Int8", "UInt8", "Int16", "UInt16", "Int32", "UInt32", "Int64",
     "UInt64", "Float32", "Float64", "Duration", "DateTime", "String8"]⟩,
   ⟨"::Smp::Services::", "TimeKind", "TK_",
    ["SimulationTime", "MissionTime", "EpochTime", "ZuluTime"]⟩,
   ⟨"::Smp::", "ViewKind", "VK_", ["None", "Debug", "Expert", "All"]⟩,
   ⟨"::Smp::Publication::", "ParameterDirectionKind", "PDK_", ["In", "Out", "InOut", "Return"]⟩,
   ⟨"::Smp::", "ComponentStateKind", "CSK_",
    ["Created", "Publishing", "Configured", "Connected", "Disconnected"]⟩,
   ⟨"::Smp::", "AccessKind", "AK_", ["ReadWrite", "ReadOnly", "WriteOnly"]⟩,
   ⟨"::Smp::", "SimulatorStateKind", "SSK_",
    ["Building", "Connecting", "Initialising", "Standby", "Executing", "Storing", "Restoring",
     "Reconnecting", "Exiting", "Aborting"]⟩]

/-- The literals from a value on: each value with its name. -/
def literalsFrom (pre : String) : Nat → List String → List (Int × Str)
  | _, [] => []
  | i, t :: ts => ((i : Int), (pre ++ t).toList) :: literalsFrom pre (i + 1) ts

/-- The kinds in the order of their numbers in the standard. -/
def kindsInOrder : List Kind :=
  [.None, .Char8, .Bool, .Int8, .UInt8, .Int16, .UInt16, .Int32, .UInt32, .Int64, .UInt64,
   .Float32, .Float64, .Duration, .DateTime, .String8]

/-- The names of the primitive types in the same order. -/
def namesInOrder : List String :=
  ["Void", "Char8", "Bool", "Int8", "UInt8", "Int16", "UInt16", "Int32", "UInt32", "Int64",
   "UInt64", "Float32", "Float64", "Duration", "DateTime", "String8"]

/-! ### Lemmas -/

deriving instance DecidableEq for TypeDef, Entry

theorem getEntry_step (R : Registry) (op : Op) (u : Uuid) (e : Entry) (h : getEntry R u = some e) :
    ∃ e', getEntry (step R op).1 u = some e' ∧ e'.uuid = e.uuid ∧ e'.name = e.name ∧
      Grows e.type e'.type := by
  unfold getEntry at *
  rcases step_cases R op with he | ⟨_, _, _, n, t1, he, _⟩ | ⟨ha, _, t1, t', ht, hg, he, _⟩
  · rw [he]; exact ⟨e, h, rfl, rfl, Grows.refl _⟩
  · rw [he, List.find?_append, h]; exact ⟨e, rfl, rfl, rfl, Grows.refl _⟩
  · rw [he]
    have key : (modify R op.target t').find? (fun e => e.uuid == u) =
        (R.find? (fun e => e.uuid == u)).map
          (fun e => if e.uuid = op.target then { e with type := t' } else e) := by
      unfold modify
      rw [List.find?_map]
      congr 2
      funext d
      simp only [Function.comp]
      split <;> rfl
    rw [key, h]
    simp only [Option.map_some, Option.some.injEq, exists_eq_left']
    split
    · rename_i hu
      refine ⟨rfl, rfl, ?_⟩
      have hu' : e.uuid = u := by have := List.find?_some h; exact beq_iff_eq.1 this
      have : getType R op.target = some e.type := by
        unfold getType
        rw [← hu, hu', h]
        rfl
      rw [this] at ht
      cases ht
      exact hg
    · exact ⟨rfl, rfl, Grows.refl _⟩

theorem getEntry_run (ops : List Op) : ∀ (R : Registry) (u : Uuid) (e : Entry),
    getEntry R u = some e →
    ∃ e', getEntry (run R ops) u = some e' ∧ e'.uuid = e.uuid ∧ e'.name = e.name ∧
      Grows e.type e'.type := by
  induction ops with
  | nil => intro R u e h; exact ⟨e, h, rfl, rfl, Grows.refl _⟩
  | cons op ops ih =>
    intro R u e h
    obtain ⟨e1, h1, hu1, hn1, hg1⟩ := getEntry_step R op u e h
    obtain ⟨e2, h2, hu2, hn2, hg2⟩ := ih _ u e1 h1
    exact ⟨e2, h2, hu2.trans hu1, hn2.trans hn1, hg1.trans hg2⟩

/-! ### C125 -/

/-- C125: the constructor of the registry throws no exception: none of its calls meets a UUID or a
literal value that is already taken, a name that is not accepted or an unsupported size. -/
theorem C125_construct : ctorRun [] ctorCalls = (initial, none) := by
  decide +kernel

theorem ctorRun_each : ∀ (cs : List CtorCall) (R S : Registry), ctorRun R cs = (S, none) →
    ∀ k c, cs[k]? = some c → (ctorStep ((cs.take k).foldl (fun R c => (ctorStep R c).1) R) c).2 = none
  | [], _, _, _, k, c, hc => by simp at hc
  | d :: cs, R, S, h, k, c, hc => by
    unfold ctorRun at h
    cases hd : ctorStep R d with
    | mk R' e =>
      rw [hd] at h
      cases e with
      | some e => simp at h
      | none =>
        cases k with
        | zero =>
          simp only [List.getElem?_cons_zero, Option.some.injEq] at hc
          subst hc
          simp [hd]
        | succ k =>
          rw [List.getElem?_cons_succ] at hc
          rw [List.take_succ_cons, List.foldl_cons, hd]
          exact ctorRun_each cs R' S h k c hc

/-- C125: the same, call by call: after the calls before it, each call of the constructor is
accepted. -/
theorem C125_each (k : Nat) (c : CtorCall) (hc : ctorCalls[k]? = some c) :
    (ctorStep ((ctorCalls.take k).foldl (fun R c => (ctorStep R c).1) []) c).2 = none :=
  ctorRun_each ctorCalls [] initial C125_construct k c hc

/-- A constructor that registered a type twice would throw. -/
example : (ctorRun [] [.primitive "Bool".toList (primUuid .Bool) .Bool,
    .primitive "Bool".toList (primUuid .Bool) .Bool]).2 ≠ none := by decide

/-- C125: `GetType` of a kind gives, for each of the sixteen numbers of the standard, the primitive
type of that kind under its name, and a null pointer for every other number, whatever was
registered since. -/
theorem C125_kind (ops : List Op) (n : Int) :
    (∀ i k name, n = (i : Nat) → kindsInOrder[i]? = some k → namesInOrder[i]? = some name →
      ∃ e, getTypeByNumber (run initial ops) n = some e ∧ e ∈ run initial ops ∧
        e.name = name.toList ∧ e.type = .primitive k) ∧
    ((∀ i : Nat, i < kindsInOrder.length → n ≠ i) →
      getTypeByNumber (run initial ops) n = none) := by
  have h0 : ∀ k, getEntry initial (primUuid k) = some ⟨primUuid k, primName k, .primitive k⟩ := by
    intro k; cases k <;> rfl
  have h1 : ∀ k, ∃ e, getEntry (run initial ops) (primUuid k) = some e ∧ e ∈ run initial ops ∧
      e.name = primName k ∧ e.type = .primitive k := by
    intro k
    obtain ⟨e, he, _, hn, hg⟩ := getEntry_run ops initial _ _ (h0 k)
    refine ⟨e, he, List.mem_of_find?_eq_some he, hn, ?_⟩
    generalize e.type = t at hg
    cases t <;> simp only [Grows] at hg <;> cases hg
    rfl
  have h2 : ∀ i < 16, ∀ k name, kindsInOrder[i]? = some k → namesInOrder[i]? = some name →
      getTypeByNumber (run initial ops) (i : Nat) = getEntry (run initial ops) (primUuid k) ∧
      primName k = name.toList := by
    intro i hi k name hk hname
    rcases i with _|_|_|_|_|_|_|_|_|_|_|_|_|_|_|_|i <;>
      first
      | (injection hk with hk; injection hname with hname; subst hk; subst hname
         exact ⟨rfl, rfl⟩)
      | omega
  refine ⟨?_, ?_⟩
  · intro i k name hn hk hname
    have hi : i < 16 := (List.getElem?_eq_some_iff.1 hk).1
    obtain ⟨e, he, hm, hen, ht⟩ := h1 k
    obtain ⟨hget, hnm⟩ := h2 i hi k name hk hname
    rw [hn, hget]
    exact ⟨e, he, hm, hen.trans hnm, ht⟩
  · intro h
    have h' : ∀ i : Nat, i < 16 → n ≠ i := h
    unfold getTypeByNumber
    split <;>
      first
      | (exact absurd rfl (h' 0 (by decide))) | (exact absurd rfl (h' 1 (by decide)))
      | (exact absurd rfl (h' 2 (by decide))) | (exact absurd rfl (h' 3 (by decide)))
      | (exact absurd rfl (h' 4 (by decide))) | (exact absurd rfl (h' 5 (by decide)))
      | (exact absurd rfl (h' 6 (by decide))) | (exact absurd rfl (h' 7 (by decide)))
      | (exact absurd rfl (h' 8 (by decide))) | (exact absurd rfl (h' 9 (by decide)))
      | (exact absurd rfl (h' 10 (by decide))) | (exact absurd rfl (h' 11 (by decide)))
      | (exact absurd rfl (h' 12 (by decide))) | (exact absurd rfl (h' 13 (by decide)))
      | (exact absurd rfl (h' 14 (by decide))) | (exact absurd rfl (h' 15 (by decide)))
      | rfl

/-- C125: each enumeration of the standard is in the registry, as a four byte enumeration with its
name and with its literals, whatever was registered since; literals that were added afterwards come
behind them, with other values. In a new registry there are no others. -/
theorem C125_registered (ops : List Op) (s : Standard) (hs : s ∈ standard) :
    ∃ e more, e ∈ run initial ops ∧ getType (run initial ops) e.uuid = some e.type ∧
      e.name = s.name.toList ∧
      e.type = .enumeration .Int32 (literalsFrom s.pre 0 s.texts ++ more) ∧
      (∀ l ∈ more, ¬ (0 ≤ l.1 ∧ l.1 < s.texts.length)) ∧
      (ops = [] → more = []) := by
  have h0 : ∀ s ∈ standard, ∃ e ∈ initial, getEntry initial e.uuid = some e ∧
      e.name = s.name.toList ∧ e.type = .enumeration .Int32 (literalsFrom s.pre 0 s.texts) := by
    decide +kernel
  obtain ⟨e0, hm0, hget, hname, htype⟩ := h0 s hs
  obtain ⟨e, he, hu, hn, hg⟩ := getEntry_run ops initial _ _ hget
  rw [htype] at hg
  have hu' : e.uuid = e0.uuid := by have := List.find?_some he; exact beq_iff_eq.1 this
  have ht : getType (run initial ops) e.uuid = some e.type := by
    unfold getType; rw [hu']; unfold getEntry at he; rw [he]; rfl
  obtain ⟨more, hmore⟩ : ∃ more, e.type =
      .enumeration .Int32 (literalsFrom s.pre 0 s.texts ++ more) := by
    generalize e.type = t at hg
    cases t <;> simp only [Grows] at hg <;> first | (cases hg; done) | skip
    obtain ⟨rfl, more, hm⟩ := hg
    exact ⟨more, by rw [hm]⟩
  refine ⟨e, more, List.mem_of_find?_eq_some he, ht, hn.trans hname, hmore, ?_, ?_⟩
  · have hnd := C53_literals ops _ _ _ (ht.trans (by rw [hmore]))
    rw [List.map_append, List.nodup_append] at hnd
    intro l hl hlt
    have key : ∀ (ts : List String) (i : Nat) (v : Int), i ≤ v → v < i + ts.length →
        v ∈ (literalsFrom s.pre i ts).map Prod.fst := by
      intro ts
      induction ts with
      | nil => intro i v h1 h2; simp only [List.length_nil] at h2; omega
      | cons t ts ih =>
        intro i v h1 h2
        simp only [List.length_cons] at h2
        simp only [literalsFrom, List.map_cons, List.mem_cons]
        by_cases hv : v = i
        · exact .inl hv
        · exact .inr (ih (i + 1) v (by omega) (by omega))
    exact hnd.2.2 _ (key s.texts 0 l.1 (by omega) (by omega)) _ (List.mem_map_of_mem hl) rfl
  · intro h
    subst h
    have : e = e0 := by
      have : getEntry initial e0.uuid = some e := he
      rw [hget] at this
      exact (Option.some.inj this).symm
    subst this
    rw [htype] at hmore
    injection hmore with _ h
    exact (List.append_right_eq_self.1 h.symm)

/-- C125: in a new registry a value of one of these types is valid exactly if it is one of the
values of the standard. -/
theorem C125_valid (s : Standard) (hs : s ∈ standard) (e : Entry) (he : e ∈ initial)
    (hn : e.name = s.name.toList) (v : Int) (hv : -2147483648 ≤ v ∧ v ≤ 2147483647) :
    isValid e.type ⟨.Int32, .int v⟩ = .ok true ↔ 0 ≤ v ∧ v < s.texts.length := by
  have h0 : ∀ s ∈ standard, ∀ e ∈ initial, e.name = s.name.toList →
      e.type = .enumeration .Int32 (literalsFrom s.pre 0 s.texts) := by
    decide +kernel
  have hget : Verif.Any.getInt .i32 ⟨.Int32, .int v⟩ = .ok v := by
    show Verif.Any.Out.ok (Verif.Any.wrap .i32 v) = _
    have : Verif.Any.wrap .i32 v = v := by
      show Int.bmod v (2 ^ 32) = v
      rw [Int.bmod_def]
      split <;> omega
    rw [this]
  rw [h0 s hs e he hn]
  have key : ∀ (ts : List String) (i : Nat),
      (literalsFrom s.pre i ts).any (fun l => l.1 == v) = true ↔ i ≤ v ∧ v < i + ts.length := by
    intro ts
    induction ts with
    | nil => intro i; simp [literalsFrom]
    | cons t ts ih =>
      intro i
      simp only [literalsFrom, List.any_cons, Bool.or_eq_true, ih (i + 1), List.length_cons,
        beq_iff_eq]
      omega
  have := key s.texts 0
  simp only [isValid, TypeDef.kind, ne_eq, not_true_eq_false, if_false, hget]
  show Verif.Any.Out.ok _ = Verif.Any.Out.ok true ↔ _
  simp only [Verif.Any.Out.ok.injEq]
  rw [this]
  omega

/-- C125: the text that is printed for a value of the standard is the name of its literal without
the prefix, and Python knows it under the name of its literal; neither knows any other value. -/
theorem C125_texts (s : Standard) (hs : s ∈ standard) :
    (∃ E ∈ Verif.Any.Print.enums, E.name = s.scope ++ s.name ∧
      E.names.length = s.texts.length ∧
      ∀ text ∈ s.texts, ∃ i, E.names[i]? = some (s.pre ++ text, text) ∧
        E.print (.known i) = text.toList) ∧
    (∃ P ∈ pyEnums, P.name = s.name ∧ P.values = s.texts.map (fun t => (s.pre ++ t, s.pre ++ t))) ∧
    s.texts.Nodup := by
  have h : ∀ s ∈ standard,
      (∃ E ∈ Verif.Any.Print.enums, E.name = s.scope ++ s.name ∧
        E.names.length = s.texts.length ∧
        ∀ text ∈ s.texts, ∃ i ∈ List.range E.names.length,
          E.names[i]? = some (s.pre ++ text, text) ∧ E.print (.known i) = text.toList) ∧
      (∃ P ∈ pyEnums, P.name = s.name ∧
        P.values = s.texts.map (fun t => (s.pre ++ t, s.pre ++ t))) ∧
      s.texts.Nodup := by
    decide +kernel
  obtain ⟨⟨E, hE, hn, hl, ht⟩, hp, hd⟩ := h s hs
  refine ⟨⟨E, hE, hn, hl, ?_⟩, hp, hd⟩
  intro text htext
  obtain ⟨i, _, h⟩ := ht text htext
  exact ⟨i, h⟩

/-- C125, a remark: nothing protects the literals of a predefined enumeration; a call may add one,
which is then valid. -/
theorem C125_extended : ∃ op, (step initial op).2 = none ∧
    ∃ e ∈ (step initial op).1, e.name = "AccessKind".toList ∧
      isValid e.type ⟨.Int32, .int 7⟩ = .ok true := by
  refine ⟨.addLiteral 23 "AK_Mine".toList 7, by rfl,
    ⟨23, "AccessKind".toList, .enumeration .Int32 (accessLiterals ++ [(7, "AK_Mine".toList)])⟩, ?_,
    rfl, rfl⟩
  decide +kernel

example : ∃ s ∈ standard, s.name = "SimulatorStateKind" ∧ s.texts.length = 10 := by decide +kernel
example : ∃ e ∈ initial, e.name = "ViewKind".toList ∧
    isValid e.type ⟨.Int32, .int 3⟩ = .ok true ∧ isValid e.type ⟨.Int32, .int 4⟩ = .ok false :=
  ⟨⟨20, "ViewKind".toList, .enumeration .Int32 viewLiterals⟩, by decide +kernel, rfl, rfl, rfl⟩
example : getTypeByNumber (run initial [.addStructure 100 (some "S".toList),
    .addLiteral 16 "PTK_Mine".toList 16]) 15 = some ⟨14, "String8".toList, .primitive .String8⟩ := by
  decide +kernel
example : getTypeByNumber (run initial [.addLiteral 16 "PTK_Mine".toList 16]) 16 = none := by
  decide +kernel

end Verif.Pub
