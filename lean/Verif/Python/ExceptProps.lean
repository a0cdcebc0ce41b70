import Verif.Python.Except
import Verif.Python.ValueProps

/-! Property C154: exceptions of the simulator in Python. -/
namespace Verif.Python.Except
open Verif.Python.Value (encode decode)

/-! ### Specification -/

/-- An exception of the standard that is an instance of at most one class below `::Smp::Exception`, as
those of the library are. -/
structure Plain (t : Thrown) : Prop where
  root : root ∈ t.classes
  one : ∀ x ∈ registered, ∀ y ∈ registered, x ∈ t.classes → y ∈ t.classes → x = y

/-- The text of an exception: name, description and message. -/
def textOf (name description message : List Char) : List Char :=
  name ++ ['('] ++ description ++ [')', ':', ' '] ++ message

/-! ### Lemmas -/

theorem root_not_registered : root ∉ registered := by decide +kernel

theorem registered_nodup : registered.Nodup := by decide +kernel

theorem catches_smp (x n : Name) : catches (.smp x) (.smp n) = true ↔ x = n ∨ x = root := by
  unfold catches Cls.base
  by_cases hn : n = root
  · subst hn
    simp [Cls.base]
    constructor
    · intro h; exact h.symm
    · intro h; exact h.symm
  · simp only [hn, if_false, Bool.or_eq_true, beq_iff_eq, Cls.smp.injEq, Cls.base, if_true]
    constructor
    · rintro (h | h | h)
      · exact .inl h.symm
      · exact .inr h.symm
      · cases h
    · rintro (h | h)
      · exact .inl h.symm
      · exact .inr (.inl h.symm)

/-- What is found. -/
theorem find_spec (t : Thrown) :
    match (root :: registered).reverse.find? (t.classes.contains ·) with
    | some n => (n ∈ registered ∧ n ∈ t.classes ∧ ∃ before after, registered = before ++ n :: after ∧
          ∀ x ∈ after, x ∉ t.classes) ∨
        (n = root ∧ root ∈ t.classes ∧ ∀ x ∈ registered, x ∉ t.classes)
    | none => root ∉ t.classes ∧ ∀ x ∈ registered, x ∉ t.classes := by
  cases hf : (root :: registered).reverse.find? (t.classes.contains ·) with
  | none =>
    dsimp only
    rw [List.find?_eq_none] at hf
    have h : ∀ x, x ∈ root :: registered → x ∉ t.classes := by
      intro x hx
      have := hf x (List.mem_reverse.2 hx)
      simpa using this
    exact ⟨h root (by simp), fun x hx => h x (by simp [hx])⟩
  | some n =>
    dsimp only
    rw [List.find?_eq_some_iff_append] at hf
    obtain ⟨hn, as, bs, he, ha⟩ := hf
    have hn' : n ∈ t.classes := by simpa using hn
    have e2 := congrArg List.reverse he
    rw [List.reverse_reverse] at e2
    simp only [List.reverse_append, List.reverse_cons, List.append_assoc, List.cons_append,
      List.nil_append] at e2
    cases hb : bs.reverse with
    | nil =>
      rw [hb] at e2
      simp only [List.nil_append, List.cons.injEq] at e2
      refine .inr ⟨e2.1.symm, e2.1 ▸ hn', fun x hx => ?_⟩
      rw [e2.2] at hx
      have := ha x (List.mem_reverse.1 hx)
      simpa using this
    | cons b bs' =>
      rw [hb] at e2
      simp only [List.cons_append, List.cons.injEq] at e2
      refine .inl ⟨by rw [e2.2]; simp, hn', bs', as.reverse, e2.2, fun x hx => ?_⟩
      have := ha x (List.mem_reverse.1 hx)
      simpa using this

theorem set_cls {c : Cls} {w : List Nat} {s : List Char} (h : decode w = some s) : set c w = ⟨c, s⟩ := by
  simp [set, h]

/-! ### C154 -/

/-- C154: an exception of the standard whose text is UTF-8 is caught in Python by `except X`, for the
classes `X` of the standard, exactly if C++ would catch it by `catch (X &)`; and its text is that of
`what()`. -/
theorem C154_catch_partial (t : Thrown) (hp : Plain t) (s : List Char) (hs : decode t.what = some s) :
    (translate t).text = s ∧ catches .runtimeError (translate t).cls = true ∧
    ∀ x ∈ root :: registered, (catches (.smp x) (translate t).cls = true ↔ x ∈ t.classes) := by
  have spec := find_spec t
  unfold translate
  cases hf : (root :: registered).reverse.find? (t.classes.contains ·) with
  | none => rw [hf] at spec; exact absurd hp.root spec.1
  | some n =>
    rw [hf] at spec
    dsimp only at spec ⊢
    rw [set_cls hs]
    refine ⟨rfl, ?_, fun x hx => ?_⟩
    · unfold catches Cls.base
      by_cases hn : n = root <;> simp [hn, Cls.base]
    · rw [catches_smp]
      rcases spec with ⟨h1, h2, _⟩ | ⟨rfl, h2, h3⟩
      · constructor
        · rintro (rfl | rfl)
          · exact h2
          · exact hp.root
        · intro hc
          rcases List.mem_cons.1 hx with rfl | hx
          · exact .inr rfl
          · exact .inl (hp.one x hx n h1 hc h2)
      · constructor
        · rintro (rfl | rfl) <;> exact h2
        · intro hc
          rcases List.mem_cons.1 hx with rfl | hx
          · exact .inr rfl
          · exact absurd hc (h3 x hx)

theorem what_encode (a b c : List Char) (ha : Char.ofNat 0 ∉ a) (hb : Char.ofNat 0 ∉ b)
    (hc : Char.ofNat 0 ∉ c) : whatOf (encode a) (encode b) (encode c) = encode (textOf a b c) := by
  have cut : ∀ s : List Char, Char.ofNat 0 ∉ s → cstr (encode s) = encode s := by
    intro s hs
    unfold cstr
    apply Value.takeWhile_all
    intro x hx
    refine decide_eq_true fun e => hs ?_
    rw [← Value.zero_mem_encode, ← e]
    exact hx
  have app : ∀ x y : List Char, encode (x ++ y) = encode x ++ encode y := by
    intro x y; simp [encode]
  unfold whatOf
  rw [cut a ha, cut b hb, cut c hc]
  have e : encode a ++ [40] ++ encode b ++ [41, 58, 32] ++ encode c = encode (textOf a b c) := by
    unfold textOf
    rw [app, app, app, app]
    rfl
  rw [e]
  apply cut
  unfold textOf
  simp only [List.mem_append, List.mem_cons, List.not_mem_nil, or_false, not_or]
  exact ⟨⟨⟨⟨ha, by decide⟩, hb⟩, by decide, by decide, by decide⟩, hc⟩

/-- C154: every exception that the library raises, with texts that are UTF-8, arrives as the class of
Python of the same module and name, with name, description and message in its text. -/
theorem C154_raised_partial (n : Name) (hn : n ∈ raised) (a b c : List Char) (ha : Char.ofNat 0 ∉ a)
    (hb : Char.ofNat 0 ∉ b) (hc : Char.ofNat 0 ∉ c) :
    translate (throwClass n (encode a) (encode b) (encode c)) = ⟨.smp n, textOf a b c⟩ := by
  have hreg : n ∈ registered := by
    have : ∀ n ∈ raised, n ∈ registered := by decide +kernel
    exact this n hn
  have hne : n ≠ root := fun e => root_not_registered (e ▸ hreg)
  have spec := find_spec (throwClass n (encode a) (encode b) (encode c))
  unfold translate
  cases hf : (root :: registered).reverse.find?
      ((throwClass n (encode a) (encode b) (encode c)).classes.contains ·) with
  | none =>
    rw [hf] at spec
    exact absurd (by simp [throwClass]) (spec.2 n hreg)
  | some m =>
    rw [hf] at spec
    dsimp only at spec ⊢
    have hm : m = n := by
      rcases spec with ⟨h1, h2, _⟩ | ⟨_, _, h3⟩
      · simp only [throwClass, List.mem_cons, List.not_mem_nil, or_false] at h2
        rcases h2 with rfl | rfl
        · exact absurd h1 root_not_registered
        · rfl
      · exact absurd (by simp [throwClass]) (h3 n hreg)
    rw [hm]
    apply set_cls
    rw [show (throwClass n (encode a) (encode b) (encode c)).what = _ from what_encode a b c ha hb hc]
    exact Value.decode_encode _

/-- C154: no class of the standard catches an exception that is none of the standard. -/
theorem C154_other (t : Thrown) (h : ∀ x ∈ root :: registered, x ∉ t.classes) (x : Name) :
    catches (.smp x) (translate t).cls = false := by
  unfold translate
  have : (root :: registered).reverse.find? (t.classes.contains ·) = none := by
    rw [List.find?_eq_none]
    intro y hy
    have := h y (List.mem_reverse.1 hy)
    simpa using this
  rw [this]
  dsimp only
  unfold set
  split
  · cases t.std <;> simp [builtin, catches, Cls.base]
  · simp [catches, Cls.base]

/-- C154 in full is false: an exception whose text is not UTF-8 (a name or a character of C++ in its
message, for instance) arrives as `UnicodeDecodeError`, whatever its class, and no class of the standard
catches it. -/
theorem C154_text_fails (t : Thrown) (h : decode t.what = none) :
    (translate t).cls = .unicodeDecodeError ∧ catches .runtimeError (translate t).cls = false ∧
    ∀ x, catches (.smp x) (translate t).cls = false := by
  have e : (translate t).cls = .unicodeDecodeError := by
    unfold translate set
    rw [h]
    split <;> rfl
  rw [e]
  exact ⟨rfl, by decide, fun x => by simp [catches, Cls.base]⟩

/-- C154 in full is false: exceptions that C++ tells apart by their name alone (`InvalidUUID`,
`IncompatibleType`, `NullPointerException`, …) all have the same class in Python. -/
theorem C154_named_fails (a b c : List Char) (ha : Char.ofNat 0 ∉ a) (hb : Char.ofNat 0 ∉ b)
    (hc : Char.ofNat 0 ∉ c) :
    translate (throwNamed (encode a) (encode b) (encode c)) = ⟨.smp root, textOf a b c⟩ := by
  have : translate (throwNamed (encode a) (encode b) (encode c)) =
      set (.smp root) (whatOf (encode a) (encode b) (encode c)) := by
    have hf : (root :: registered).reverse.find? ([root].contains ·) = some root := by decide +kernel
    unfold translate
    rw [show (throwNamed (encode a) (encode b) (encode c)).classes = [root] from rfl, hf]
    rfl
  rw [this, what_encode a b c ha hb hc]
  exact set_cls (Value.decode_encode _)

/-- C154 in full is false: of an exception of a user that is two of the classes of the standard, Python
sees only the one registered last. -/
theorem C154_two_fails (t : Thrown) (x y : Name) (b c d : List Name)
    (hr : registered = b ++ x :: c ++ y :: d) (hx : x ∈ t.classes) (hy : y ∈ t.classes) :
    catches (.smp x) (translate t).cls = false := by
  have hnd := registered_nodup
  have hxr : x ∈ registered := by rw [hr]; simp
  have hyr : y ∈ registered := by rw [hr]; simp
  have spec := find_spec t
  unfold translate
  cases hf : (root :: registered).reverse.find? (t.classes.contains ·) with
  | none => rw [hf] at spec; exact absurd hx (spec.2 x hxr)
  | some n =>
    rw [hf] at spec
    dsimp only at spec ⊢
    rcases spec with ⟨h1, h2, before, after, h3, h4⟩ | ⟨_, _, h3⟩
    · have hne : x ≠ n := by
        intro e
        subst e
        -- the one found is the last one, so `y` comes before
        have hyb : y ∉ after := fun h => h4 y h hy
        rw [hr] at hnd
        have h5 : b ++ x :: (c ++ y :: d) = before ++ x :: after := by
          rw [← h3, hr]; simp
        have : b = before := by
          have hb : x ∉ b := by
            intro hb
            simp only [List.append_assoc, List.cons_append] at hnd
            rw [List.nodup_append] at hnd
            exact hnd.2.2 x hb x (by simp) rfl
          have hbf : x ∉ before := by
            intro hb
            have hnd' := registered_nodup
            rw [h3, List.nodup_append] at hnd'
            exact hnd'.2.2 x hb x (by simp) rfl
          rcases List.append_eq_append_iff.1 h5 with ⟨e, h6, h7⟩ | ⟨e, h6, h7⟩
          · cases e with
            | nil => simpa using h6.symm
            | cons z e =>
              simp only [List.cons_append, List.cons.injEq] at h7
              exact absurd (by rw [h6, ← h7.1]; simp) hbf
          · cases e with
            | nil => simpa using h6
            | cons z e =>
              simp only [List.cons_append, List.cons.injEq] at h7
              exact absurd (by rw [h6, ← h7.1]; simp) hb
        rw [this] at h5
        have h8 := List.append_cancel_left h5
        simp only [List.cons.injEq, true_and] at h8
        exact hyb (by rw [← h8]; simp)
      unfold set
      have hxroot : x ≠ root := fun e => root_not_registered (e ▸ hxr)
      split
      · cases hc : catches (.smp x) (.smp n) with
        | false => rfl
        | true =>
          rcases (catches_smp x n).1 hc with e | e
          · exact absurd e hne
          · exact absurd e hxroot
      · simp [catches, Cls.base]
    · exact absurd hx (h3 x hxr)

/-! ### Cases -/

example : Plain (throwClass ⟨"Smp.Services", "InvalidEventId"⟩ [] [] []) := by
  refine ⟨by simp [throwClass], ?_⟩
  intro x hx y hy h1 h2
  simp only [throwClass, List.mem_cons, List.not_mem_nil, or_false] at h1 h2
  rcases h1 with rfl | rfl
  · exact absurd hx root_not_registered
  · rcases h2 with rfl | rfl
    · exact absurd hy root_not_registered
    · rfl

/-- `InvalidEventId`, with its texts. -/
example : (⟨"Smp.Services", "InvalidEventId"⟩ : Name) ∈ raised ∧
    translate (throwClass ⟨"Smp.Services", "InvalidEventId"⟩ (encode "InvalidEventId".toList)
      (encode "é".toList) (encode "no 7".toList)) =
    ⟨.smp ⟨"Smp.Services", "InvalidEventId"⟩, textOf "InvalidEventId".toList "é".toList "no 7".toList⟩ :=
  ⟨by decide +kernel, C154_raised_partial _ (by decide +kernel) _ _ _ (by decide) (by decide) (by decide)⟩

/-- A text that is not UTF-8: a single byte 200. -/
example : decode [200] = none := by decide +kernel

/-- Two classes, as in the hypotheses of `C154_two_fails`. -/
example : ∃ b c d, registered =
    b ++ ⟨"Smp", "CannotStore"⟩ :: c ++ ⟨"Smp.Services", "InvalidEventId"⟩ :: d :=
  ⟨registered.take 3, (registered.drop 4).takeWhile (· ≠ ⟨"Smp.Services", "InvalidEventId"⟩),
    registered.drop 43, by decide +kernel⟩

/-- Not of the standard. -/
example : (translate ⟨[], .outOfRange, [97]⟩).cls = .indexError := by decide +kernel

end Verif.Python.Except
