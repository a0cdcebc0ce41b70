import Verif.Python.Ids

/-! Property C152: Uuids in Python. -/
namespace Verif.Python.Ids
open Verif.Uuid (Uuid Str TextForm lower parse print)

/-! ### Specification -/

/-- Two objects that no operation of Python on one of them, other than giving it to the simulator or
comparing it with `==`, tells apart. -/
def Alike (h : Heap) (a b : Nat) : Prop := ∀ m, read h a m = read h b m

theorem cstr_self (t : Str) (hz : Char.ofNat 0 ∉ t) : cstr t = t := by
  induction t with
  | nil => rfl
  | cons c t ih =>
    have hcn : c ≠ Char.ofNat 0 := fun e => hz (by simp [e])
    have := ih fun e => hz (by simp [e])
    unfold cstr at this ⊢
    rw [List.takeWhile_cons_of_pos (by simpa using hcn), this]

/-! ### C152 -/

/-- C152: a text without NUL is accepted exactly if it has the form 8-4-4-4-12; the simulator gets the
Uuid with that text, and the other objects are as before. -/
theorem C152_text_partial (h : Heap) (t : Str) (hz : Char.ofNat 0 ∉ t) :
    (TextForm t → ∃ h' u, make h (some t) = .ok h' ∧ given h' h.length = some u ∧
      print u = t.map lower ∧ ∀ a < h.length, h'[a]? = h[a]?) ∧
    (¬ TextForm t → make h (some t) = .invalid) := by
  have hc : cstr t = t := cstr_self t hz
  constructor
  · intro ht
    obtain ⟨u, h1, h2⟩ := Verif.Uuid.C48_print_parse t ht
    refine ⟨h ++ [⟨u, false⟩], u, ?_, ?_, h2, ?_⟩
    · simp [make, hc, h1]
    · simp [given]
    · intro a ha
      rw [List.getElem?_append_left ha]
  · intro ht
    simp [make, hc, Verif.Uuid.C48_rejected.2 t ht]

/-- C152: `None` is refused. -/
theorem C152_none (h : Heap) : make h none = .invalid := by
  simp [make, Verif.Uuid.C48_rejected.1]

/-- C152: objects are values: no operation but a write of its own `Data1` changes an object, whatever
else is made, copied or written. -/
theorem C152_values (os : List Op) : ∀ (h h' : Heap) (a : Nat), a < h.length → run h os = some h' →
    (∀ m v, Op.write a m v ∉ os) → h'[a]? = h[a]? ∧ h.length ≤ h'.length := by
  induction os with
  | nil =>
    intro h h' a _ hr _
    simp only [run, Option.some.injEq] at hr
    subst hr
    exact ⟨rfl, Nat.le_refl _⟩
  | cons o os ih =>
    intro h h' a ha hr hw
    have one : ∀ h1, step h o = some h1 → h1[a]? = h[a]? ∧ h.length ≤ h1.length := by
      intro h1 hs
      cases o with
      | make t =>
        simp only [step, make] at hs
        cases hp : parse (t.map cstr) with
        | none =>
          simp only [hp, Option.some.injEq] at hs
          subst hs; exact ⟨rfl, Nat.le_refl _⟩
        | some u =>
          simp only [hp, Option.some.injEq] at hs
          subst hs
          exact ⟨List.getElem?_append_left ha, by simp⟩
      | fresh u =>
        simp only [step, fresh, Option.some.injEq] at hs
        subst hs
        exact ⟨List.getElem?_append_left ha, by simp⟩
      | write b m v =>
        have hab : b ≠ a := fun e => hw m v (by simp [e])
        simp only [step] at hs
        have : write h b m v = .typeError ∨ write h b m v = .ub ∨ ∃ o, write h b m v = .ok (h.set b o) := by
          cases m with
          | data1 =>
            simp only [write]
            split
            · exact .inl rfl
            · split
              · exact .inl rfl
              · split
                · exact .inr (.inl rfl)
                · exact .inr (.inr ⟨_, rfl⟩)
          | _ => exact .inl rfl
        rcases this with e | e | ⟨o, e⟩
        · rw [e] at hs; cases hs; exact ⟨rfl, Nat.le_refl _⟩
        · rw [e] at hs; cases hs
        · rw [e] at hs; cases hs
          exact ⟨List.getElem?_set_ne hab, by simp⟩
    simp only [run] at hr
    cases hs : step h o with
    | none => simp [hs] at hr
    | some h1 =>
      simp only [hs, Option.bind_some] at hr
      obtain ⟨g1, g2⟩ := one h1 hs
      obtain ⟨g3, g4⟩ := ih h1 h' a (by omega) hr fun m v hm => hw m v (by simp [hm])
      exact ⟨g3.trans g1, by omega⟩

/-- C152: a number written to `Data1` of an object that is not a constant is read back, or refused if it
is not one of 32 bits. -/
theorem C152_data1 (h : Heap) (a : Nat) (o : Obj) (ho : h[a]? = some o) (hc : o.constant = false) (v : Int) :
    (0 ≤ v ∧ v < 2 ^ 32 → ∃ h', write h a .data1 v = .ok h' ∧ read h' a .data1 = .ok v.toNat) ∧
    (¬ (0 ≤ v ∧ v < 2 ^ 32) → write h a .data1 v = .typeError) := by
  have hl : a < h.length := by
    rw [List.getElem?_eq_some_iff] at ho
    exact ho.1
  constructor
  · intro hv
    have hn : ¬ (v < 0 ∨ 2 ^ 32 ≤ v) := by omega
    refine ⟨h.set a { o with value := { o.value with d1 := BitVec.ofNat 32 v.toNat } }, ?_, ?_⟩
    · simp only [write, if_neg hn, ho, hc]
      rfl
    · simp only [read, List.getElem?_set_self hl, BitVec.toNat_ofNat]
      have : v.toNat < 2 ^ 32 := by omega
      rw [Nat.mod_eq_of_lt this]
  · intro hv
    have hn : v < 0 ∨ 2 ^ 32 ≤ v := by omega
    simp only [write, if_pos hn]

/-- C152: a copy, and what `GetUuid` returns, is an object of its own that can be written; the others are as
before. -/
theorem C152_copy (h : Heap) (u : Uuid) (v : Int) (hv : 0 ≤ v ∧ v < 2 ^ 32) :
    given (fresh h u) h.length = some u ∧
    ∃ h', write (fresh h u) h.length .data1 v = .ok h' ∧ read h' h.length .data1 = .ok v.toNat ∧
      ∀ a < h.length, h'[a]? = h[a]? := by
  have ho : (fresh h u)[h.length]? = some ⟨u, false⟩ := by simp [fresh]
  refine ⟨by simp [given, ho], ?_⟩
  obtain ⟨h', h1, h2⟩ := (C152_data1 (fresh h u) h.length _ ho rfl v).1 hv
  refine ⟨h', h1, h2, fun a ha => ?_⟩
  have hr : run (fresh h u) [.write h.length .data1 v] = some h' := by simp [run, step, h1]
  have := (C152_values _ (fresh h u) h' a (by simp [fresh]; omega) hr (by
    intro m w hm
    simp only [List.mem_singleton, Op.write.injEq] at hm
    omega)).1
  rw [this]
  exact List.getElem?_append_left ha

/-- C152 in full is false: what `GetUuid` returns is never equal to what it returned before, nor to any
other object, although it is the same Uuid. -/
theorem C152_equal_fails (h : Heap) (u : Uuid) :
    given (fresh (fresh h u) u) h.length = some u ∧
    given (fresh (fresh h u) u) (h.length + 1) = some u ∧
    (∀ a, a ≠ h.length → equal a h.length = false) ∧ equal h.length (h.length + 1) = false := by
  refine ⟨by simp [given, fresh], ?_, ?_, by simp [equal]⟩
  · unfold given fresh
    rw [List.getElem?_append_right (by simp)]
    simp
  · intro a ha
    simp [equal, ha]

/-- C152 in full is false: of a Uuid only the first 32 bits can be read; the others are refused with
`TypeError`, so that all the Uuids with the same first eight digits look the same. -/
theorem C152_members_fails (h : Heap) (a b : Nat) (o p : Obj) (ha : h[a]? = some o) (hb : h[b]? = some p)
    (hd : o.value.d1 = p.value.d1) : Alike h a b ∧ read h a .data2 = .typeError ∧
    (∀ v, write h a .data2 v = .typeError) ∧ ∀ v, write h a .data3 v = .typeError := by
  refine ⟨fun m => ?_, rfl, fun _ => rfl, fun _ => rfl⟩
  cases m with
  | data1 => simp only [read, ha, hb, hd]
  | _ => rfl

/-- C152 in full is false: the constants of the predefined types can be written, which is undefined. -/
theorem C152_constant_fails (h : Heap) (a : Nat) (o : Obj) (ho : h[a]? = some o) (hc : o.constant = true)
    (v : Int) (hv : 0 ≤ v ∧ v < 2 ^ 32) : write h a .data1 v = .ub ∧ run h [.write a .data1 v] = none := by
  have hn : ¬ (v < 0 ∨ 2 ^ 32 ≤ v) := by omega
  have e : write h a .data1 v = .ub := by
    simp only [write, if_neg hn, ho, hc, if_true]
  exact ⟨e, by simp [run, step, e]⟩

/-- C152 in full is false: what follows a NUL in a text is not seen. -/
theorem C152_nul_fails (h : Heap) (t r : Str) (hz : Char.ofNat 0 ∉ t) :
    make h (some (t ++ Char.ofNat 0 :: r)) = make h (some t) := by
  have hc : ∀ x : Str, Char.ofNat 0 ∉ x → ∀ y, (y = [] ∨ ∃ r, y = Char.ofNat 0 :: r) →
      cstr (x ++ y) = x := by
    intro x
    induction x with
    | nil =>
      rintro _ y (rfl | ⟨r, rfl⟩)
      · rfl
      · simp [cstr]
    | cons c x ih =>
      intro hx y hy
      have hcn : c ≠ Char.ofNat 0 := fun e => hx (by simp [e])
      have := ih (fun e => hx (by simp [e])) y hy
      unfold cstr at this ⊢
      rw [List.cons_append, List.takeWhile_cons_of_pos (by simpa using hcn), this]
  have h1 := hc t hz (Char.ofNat 0 :: r) (.inr ⟨r, rfl⟩)
  have h2 := hc t hz [] (.inl rfl)
  rw [List.append_nil] at h2
  simp only [make, Option.map_some, h1, h2]

/-! ### Cases -/

/-- Two different Uuids with the same first digits, as the simulator gets them. -/
def demoIds : Heap := [⟨⟨1, 2, 3, 4, 5, 6, 7, 8, 9, 10⟩, false⟩, ⟨⟨1, 0, 3, 4, 5, 6, 7, 8, 9, 10⟩, true⟩]

example : given demoIds 0 ≠ given demoIds 1 ∧ Alike demoIds 0 1 :=
  ⟨by decide, fun m => by cases m <;> rfl⟩

example : (Char.ofNat 0) ∉ "00112233-4455-6677-8899-aAbBcCdDeEfF".toList ∧
    ∃ h', make demoIds (some "00112233-4455-6677-8899-aAbBcCdDeEfF".toList) = .ok h' :=
  ⟨by decide, _, rfl⟩

/-- A program that makes, copies and writes other objects. -/
example : (run demoIds [.fresh ⟨7, 2, 3, 4, 5, 6, 7, 8, 9, 10⟩, .write 2 .data1 5, .write 2 .data3 5,
    .make none]).isSome ∧
    run demoIds [.write 1 .data1 5] = none := by decide

end Verif.Python.Ids
