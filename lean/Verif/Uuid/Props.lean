import Verif.Uuid.Lemmas

/-! Properties C48 and C49. -/
namespace Verif.Uuid

/-- A string of `n` hexadecimal digits. -/
def Hex (n : Nat) (s : Str) : Prop := s.length = n ∧ ∀ c ∈ s, isHex c = true

/-- The text form of UUIDs: 8-4-4-4-12 hexadecimal digits. -/
def TextForm (s : Str) : Prop :=
  ∃ p q r t u, Hex 8 p ∧ Hex 4 q ∧ Hex 4 r ∧ Hex 4 t ∧ Hex 12 u ∧
    s = p ++ ['-'] ++ q ++ ['-'] ++ r ++ ['-'] ++ t ++ ['-'] ++ u

theorem wellFormed_iff (s : Str) : wellFormed shape s = true ↔ TextForm s := by
  unfold shape TextForm Hex
  rw [wellFormed_hex]
  have last : ∀ v, wellFormed (List.replicate 12 .hex) v = true ↔
      v.length = 12 ∧ ∀ c ∈ v, isHex c = true := by
    intro v
    have := wellFormed_hex 12 [] v
    rw [List.append_nil] at this
    rw [this]
    constructor
    · rintro ⟨u, w, rfl, hu, hh, hw⟩
      have : w = [] := by simpa [wellFormed] using hw
      subst this; simpa using ⟨hu, hh⟩
    · rintro ⟨h1, h2⟩; exact ⟨v, [], by simp, h1, h2, rfl⟩
  simp only [wellFormed_dash, wellFormed_hex, last]
  constructor
  · rintro ⟨p, _, rfl, h1, h2, _, rfl, q, _, rfl, h3, h4, _, rfl, r, _, rfl, h5, h6, _, rfl,
      t, _, rfl, h7, h8, u, rfl, h9, h10⟩
    exact ⟨p, q, r, t, u, ⟨h1, h2⟩, ⟨h3, h4⟩, ⟨h5, h6⟩, ⟨h7, h8⟩, ⟨h9, h10⟩, by simp⟩
  · rintro ⟨p, q, r, t, u, ⟨h1, h2⟩, ⟨h3, h4⟩, ⟨h5, h6⟩, ⟨h7, h8⟩, ⟨h9, h10⟩, rfl⟩
    exact ⟨p, _, by simp, h1, h2, _, rfl, q, _, rfl, h3, h4, _, rfl, r, _, rfl, h5, h6, _, rfl,
      t, _, rfl, h7, h8, u, rfl, h9, h10⟩

/-- The numbers read from a string of that form. -/
theorem parse_text {p q r t u : Str} (hp : Hex 8 p) (hq : Hex 4 q) (hr : Hex 4 r)
    (ht : Hex 4 t) (hu : Hex 12 u) :
    parse (some (p ++ ['-'] ++ q ++ ['-'] ++ r ++ ['-'] ++ t ++ ['-'] ++ u)) =
      some { d1 := BitVec.ofNat 32 (digitsVal p)
             a := BitVec.ofNat 16 (digitsVal q)
             b := BitVec.ofNat 16 (digitsVal r)
             c := BitVec.ofNat 16 (digitsVal t)
             e0 := BitVec.ofNat 8 (digitsVal u / 2 ^ 40 % 256)
             e1 := BitVec.ofNat 8 (digitsVal u / 2 ^ 32 % 256)
             e2 := BitVec.ofNat 8 (digitsVal u / 2 ^ 24 % 256)
             e3 := BitVec.ofNat 8 (digitsVal u / 2 ^ 16 % 256)
             e4 := BitVec.ofNat 8 (digitsVal u / 2 ^ 8 % 256)
             e5 := BitVec.ofNat 8 (digitsVal u % 256) } := by
  have hdash : ∀ (v : Str) c, ('-' :: v).head? = some c → isHex c = false := by
    intro v c h; simp at h; subst h; decide
  have e0 : p ++ ['-'] ++ q ++ ['-'] ++ r ++ ['-'] ++ t ++ ['-'] ++ u =
      p ++ '-' :: (q ++ '-' :: (r ++ '-' :: (t ++ '-' :: u))) := by simp
  have wf : wellFormed shape (p ++ ['-'] ++ q ++ ['-'] ++ r ++ ['-'] ++ t ++ ['-'] ++ u)
      = true := (wellFormed_iff _).mpr ⟨p, q, r, t, u, hp, hq, hr, ht, hu, rfl⟩
  rw [e0] at wf ⊢
  have dr : ∀ (n : Nat) (x y : Str), x.length = n → (x ++ '-' :: y).drop (n + 1) = y := by
    intro n x y h; subst h
    rw [List.drop_append]; simp
  have d9 : (p ++ '-' :: (q ++ '-' :: (r ++ '-' :: (t ++ '-' :: u)))).drop 9 =
      q ++ '-' :: (r ++ '-' :: (t ++ '-' :: u)) := dr 8 p _ hp.1
  have d14 : (p ++ '-' :: (q ++ '-' :: (r ++ '-' :: (t ++ '-' :: u)))).drop 14 =
      r ++ '-' :: (t ++ '-' :: u) := by
    rw [show 14 = 9 + 5 from rfl, ← List.drop_drop, d9]; exact dr 4 q _ hq.1
  have d19 : (p ++ '-' :: (q ++ '-' :: (r ++ '-' :: (t ++ '-' :: u)))).drop 19 =
      t ++ '-' :: u := by
    rw [show 19 = 14 + 5 from rfl, ← List.drop_drop, d14]; exact dr 4 r _ hr.1
  have d24 : (p ++ '-' :: (q ++ '-' :: (r ++ '-' :: (t ++ '-' :: u)))).drop 24 = u := by
    rw [show 24 = 19 + 5 from rfl, ← List.drop_drop, d19]; exact dr 4 t _ ht.1
  have hand : ∀ n : Nat, n &&& 255 = n % 256 := fun n => Nat.and_two_pow_sub_one_eq_mod n 8
  have su : strtoul u = digitsVal u := by
    have := strtoul_digits u [] hu.2 (by rw [hu.1]; decide) (by simp)
    simpa using this
  simp only [parse, wf, if_true, d9, d14, d19, d24, su, hand, Nat.shiftRight_eq_div_pow]
  rw [strtoul_digits p _ hp.2 (by rw [hp.1]; decide) (hdash _),
    strtoul_digits q _ hq.2 (by rw [hq.1]; decide) (hdash _),
    strtoul_digits r _ hr.2 (by rw [hr.1]; decide) (hdash _),
    strtoul_digits t _ ht.2 (by rw [ht.1]; decide) (hdash _)]

theorem print_eq (u : Uuid) :
    print u = fw 8 u.d1.toNat ++ ['-'] ++ fw 4 u.a.toNat ++ ['-'] ++ fw 4 u.b.toNat ++ ['-'] ++
      fw 4 u.c.toNat ++ ['-'] ++ (fw 2 u.e0.toNat ++ fw 2 u.e1.toNat ++ fw 2 u.e2.toNat ++
        fw 2 u.e3.toNat ++ fw 2 u.e4.toNat ++ fw 2 u.e5.toNat) := by
  unfold print
  rw [hexOut_eq 8 _ u.d1.isLt (by decide), hexOut_eq 4 _ u.a.isLt (by decide),
    hexOut_eq 4 _ u.b.isLt (by decide), hexOut_eq 4 _ u.c.isLt (by decide),
    hexOut_eq 2 _ u.e0.isLt (by decide), hexOut_eq 2 _ u.e1.isLt (by decide),
    hexOut_eq 2 _ u.e2.isLt (by decide), hexOut_eq 2 _ u.e3.isLt (by decide),
    hexOut_eq 2 _ u.e4.isLt (by decide), hexOut_eq 2 _ u.e5.isLt (by decide)]
  simp

theorem fw12 (n : Nat) : fw 12 n =
    fw 2 (n / 2 ^ 40 % 256) ++ fw 2 (n / 2 ^ 32 % 256) ++ fw 2 (n / 2 ^ 24 % 256) ++
      fw 2 (n / 2 ^ 16 % 256) ++ fw 2 (n / 2 ^ 8 % 256) ++ fw 2 (n % 256) := by
  have hm : ∀ m, fw 2 (m % 256) = fw 2 m := fun m => fw_mod 2 m
  have h1 := fw_append 10 2 n
  have h2 := fw_append 8 2 (n / 16 ^ 2)
  have h3 := fw_append 6 2 (n / 16 ^ 2 / 16 ^ 2)
  have h4 := fw_append 4 2 (n / 16 ^ 2 / 16 ^ 2 / 16 ^ 2)
  have h5 := fw_append 2 2 (n / 16 ^ 2 / 16 ^ 2 / 16 ^ 2 / 16 ^ 2)
  simp only [hm]
  rw [show 12 = 10 + 2 from rfl, h1, show 10 = 8 + 2 from rfl, h2, show 8 = 6 + 2 from rfl, h3,
    show 6 = 4 + 2 from rfl, h4, show 4 = 2 + 2 from rfl, h5]
  simp only [Nat.div_div_eq_div_mul]

/-- C48. Parsing the printed form of any UUID gives the UUID back. -/
theorem C48_parse_print (u : Uuid) : parse (some (print u)) = some u := by
  rw [print_eq]
  have hx : ∀ w n, Hex w (fw w n) := fun w n => ⟨fw_length w n, isHex_fw w n⟩
  obtain ⟨n, hn, g0, g1, g2, g3, g4, g5⟩ : ∃ n, n < 16 ^ 12 ∧ n / 2 ^ 40 % 256 = u.e0.toNat ∧
      n / 2 ^ 32 % 256 = u.e1.toNat ∧ n / 2 ^ 24 % 256 = u.e2.toNat ∧
      n / 2 ^ 16 % 256 = u.e3.toNat ∧ n / 2 ^ 8 % 256 = u.e4.toNat ∧
      n % 256 = u.e5.toNat := by
    have := u.e0.isLt; have := u.e1.isLt; have := u.e2.isLt
    have := u.e3.isLt; have := u.e4.isLt; have := u.e5.isLt
    exact ⟨u.e0.toNat * 2 ^ 40 + u.e1.toNat * 2 ^ 32 + u.e2.toNat * 2 ^ 24 +
      u.e3.toNat * 2 ^ 16 + u.e4.toNat * 2 ^ 8 + u.e5.toNat,
      by omega, by omega, by omega, by omega, by omega, by omega, by omega⟩
  have e := fw12 n
  rw [g0, g1, g2, g3, g4, g5] at e
  rw [← e, parse_text (hx 8 _) (hx 4 _) (hx 4 _) (hx 4 _) (hx 12 _),
    digitsVal_fw 8 _ u.d1.isLt, digitsVal_fw 4 _ u.a.isLt, digitsVal_fw 4 _ u.b.isLt,
    digitsVal_fw 4 _ u.c.isLt, digitsVal_fw 12 _ hn, g0, g1, g2, g3, g4, g5]
  simp

/-- C48. Every string of the 8-4-4-4-12 form is accepted, and printing the result gives the
string in lower case. -/
theorem C48_print_parse (s : Str) (h : TextForm s) :
    ∃ u, parse (some s) = some u ∧ print u = s.map lower := by
  obtain ⟨p, q, r, t, u, hp, hq, hr, ht, hu, rfl⟩ := h
  refine ⟨_, parse_text hp hq hr ht hu, ?_⟩
  rw [print_eq]
  have key : ∀ {n x}, Hex n x → digitsVal x < 16 ^ n ∧ fw n (digitsVal x) = x.map lower := by
    intro n x hx
    have := digitsVal_lt x hx.2
    rw [hx.1] at this; exact this
  have small : ∀ m, m % 256 % 2 ^ 8 = m % 256 := by intro m; omega
  simp only [BitVec.toNat_ofNat, small]
  rw [Nat.mod_eq_of_lt (show digitsVal p < 2 ^ 32 from (key hp).1),
    Nat.mod_eq_of_lt (show digitsVal q < 2 ^ 16 from (key hq).1),
    Nat.mod_eq_of_lt (show digitsVal r < 2 ^ 16 from (key hr).1),
    Nat.mod_eq_of_lt (show digitsVal t < 2 ^ 16 from (key ht).1),
    (key hp).2, (key hq).2, (key hr).2, (key ht).2, ← fw12, (key hu).2]
  simp [lower]

/-- C48. Every other string, and the null pointer, is rejected with `InvalidUUID`. -/
theorem C48_rejected : parse none = none ∧
    ∀ s, ¬ TextForm s → parse (some s) = none := by
  refine ⟨rfl, ?_⟩
  intro s h
  have : wellFormed shape s = false := by
    cases hw : wellFormed shape s with
    | false => rfl
    | true => exact absurd ((wellFormed_iff s).mp hw) h
  simp [parse, this]

example : TextForm "00112233-4455-6677-8899-aAbBcCdDeEfF".toList :=
  (wellFormed_iff _).mp (by decide)
example : ¬ TextForm "00112233-4455-6677-8899-aAbBcCdDeEfF0".toList := by
  rw [← wellFormed_iff]; decide
example : ¬ TextForm "0x112233-4455-6677-8899-aAbBcCdDeEfF".toList := by
  rw [← wellFormed_iff]; decide

/-! ### C49 -/

/-- `==` is equality of all parts and `!=` its negation. -/
theorem C49_equality (u v : Uuid) : (eq u v = true ↔ u = v) ∧ ne u v = !eq u v := by
  constructor
  · constructor
    · intro h
      simp only [eq, data2, data3, Bool.and_eq_true, beq_iff_eq, List.cons.injEq, and_true,
        BitVec.toNat_inj] at h
      cases u; cases v
      simp_all
    · rintro rfl; simp [eq]
  · simp [ne, eq, bne, Bool.not_and]

/-- C49. No UUID is less than itself. -/
theorem C49_irreflexive (u : Uuid) : lt u u = false := by
  simp [lt, arrayLt_irrefl]

/-- C49. The order is transitive. -/
theorem C49_transitive (u v w : Uuid) (h1 : lt u v = true) (h2 : lt v w = true) :
    lt u w = true := by
  have key : ∀ x y : Uuid, lt x y = true ↔ x.d1.toNat < y.d1.toNat ∨
      (x.d1.toNat = y.d1.toNat ∧ (arrayLt (data2 x) (data2 y) = true ∨
        (data2 x = data2 y ∧ arrayLt (data3 x) (data3 y) = true))) := by
    intro x y
    unfold lt
    by_cases a1 : x.d1.toNat < y.d1.toNat
    · simp [a1]
    · by_cases a2 : x.d1.toNat > y.d1.toNat
      · simp [a1, a2]; omega
      · have a3 : x.d1.toNat = y.d1.toNat := by omega
        rw [if_neg a1, if_neg a2]
        simp only [a3, true_and]
        cases b1 : arrayLt (data2 x) (data2 y) with
        | true => simp
        | false =>
          cases b2 : arrayLt (data2 y) (data2 x) with
          | true =>
            simp
            intro e; rw [e, arrayLt_irrefl] at b2; cases b2
          | false =>
            have := arrayLt_total _ _ (by simp [data2]) b1 b2
            simp [this]
  rw [key] at h1 h2 ⊢
  rcases h1 with h1 | ⟨e1, h1⟩
  · rcases h2 with h2 | ⟨e2, h2⟩
    · exact Or.inl (by omega)
    · exact Or.inl (by omega)
  · rcases h2 with h2 | ⟨e2, h2⟩
    · exact Or.inl (by omega)
    · refine Or.inr ⟨by omega, ?_⟩
      rcases h1 with h1 | ⟨f1, h1⟩
      · rcases h2 with h2 | ⟨f2, h2⟩
        · exact Or.inl (arrayLt_trans h1 h2)
        · exact Or.inl (f2 ▸ h1)
      · rcases h2 with h2 | ⟨f2, h2⟩
        · exact Or.inl (f1 ▸ h2)
        · exact Or.inr ⟨f1.trans f2, arrayLt_trans h1 h2⟩

/-- C49. Two UUIDs neither of which is less than the other are equal; so the key
equivalence of `std::map` is `==`. -/
theorem C49_total (u v : Uuid) :
    (lt u v = false ∧ lt v u = false) ↔ eq u v = true := by
  constructor
  · rintro ⟨h1, h2⟩
    unfold lt at h1 h2
    by_cases a1 : u.d1.toNat < v.d1.toNat
    · simp [a1] at h1
    · by_cases a2 : v.d1.toNat < u.d1.toNat
      · simp [a2] at h2
      · have a3 : u.d1.toNat = v.d1.toNat := by omega
        have a1' : ¬ u.d1.toNat > v.d1.toNat := a2
        have a2' : ¬ v.d1.toNat > u.d1.toNat := a1
        rw [if_neg a1, if_neg a1'] at h1
        rw [if_neg a2, if_neg a2'] at h2
        cases b1 : arrayLt (data2 u) (data2 v) with
        | true => simp [b1] at h1
        | false =>
          cases b2 : arrayLt (data2 v) (data2 u) with
          | true => simp [b2] at h2
          | false =>
            have e2 := arrayLt_total _ _ (by simp [data2]) b1 b2
            cases c1 : arrayLt (data3 u) (data3 v) with
            | true => simp [b1, b2, c1] at h1
            | false =>
              cases c2 : arrayLt (data3 v) (data3 u) with
              | true => simp [b1, b2, c2] at h2
              | false =>
                have e3 := arrayLt_total _ _ (by simp [data3]) c1 c2
                simp [eq, a3, e2, e3]
  · intro h
    have := (C49_equality u v).1.mp h
    subst this
    exact ⟨C49_irreflexive u, C49_irreflexive u⟩

/-- The number whose hexadecimal digits are those of the text of the UUID. -/
def value (u : Uuid) : Nat :=
  u.d1.toNat * 2 ^ 96 + u.a.toNat * 2 ^ 80 + u.b.toNat * 2 ^ 64 + u.c.toNat * 2 ^ 48 +
    u.e0.toNat * 2 ^ 40 + u.e1.toNat * 2 ^ 32 + u.e2.toNat * 2 ^ 24 + u.e3.toNat * 2 ^ 16 +
    u.e4.toNat * 2 ^ 8 + u.e5.toNat

/-- One step of a comparison of two numbers digit by digit. -/
theorem lex_step (M x y r t : Nat) (hr : r < M) (ht : t < M) :
    x * M + r < y * M + t ↔ x < y ∨ (x = y ∧ r < t) := by
  constructor
  · intro h
    rcases Nat.lt_trichotomy x y with h1 | h1 | h1
    · exact .inl h1
    · subst h1; exact .inr ⟨rfl, by omega⟩
    · exfalso
      have : (y + 1) * M ≤ x * M := Nat.mul_le_mul_right M h1
      rw [Nat.add_mul] at this
      omega
  · rintro (h | ⟨rfl, h⟩)
    · have : (x + 1) * M ≤ y * M := Nat.mul_le_mul_right M h
      rw [Nat.add_mul] at this
      omega
    · omega

theorem arrayLt_cons (x y : Nat) (l m : List Nat) :
    arrayLt (x :: l) (y :: m) = true ↔ x < y ∨ (x = y ∧ arrayLt l m = true) := by
  rw [arrayLt]
  by_cases h : x < y
  · simp [h]
  · by_cases h2 : y < x
    · rw [if_neg h, if_pos h2]; simp; omega
    · rw [if_neg h, if_neg h2]
      have : x = y := by omega
      simp [this]

/-- Two comparisons, one after the other. -/
theorem arrayLt_append (l m l' m' : List Nat) (h : l.length = m.length) :
    ((if arrayLt l m then true else if arrayLt m l then false
      else if arrayLt l' m' then true else false) = true) ↔
      arrayLt (l ++ l') (m ++ m') = true := by
  induction l generalizing m with
  | nil =>
    cases m with
    | nil => simp [arrayLt]
    | cons y m => simp at h
  | cons x l ih =>
    cases m with
    | nil => simp at h
    | cons y m =>
      have := ih m (by simpa using h)
      rw [List.cons_append, List.cons_append, arrayLt_cons x y (l ++ l') (m ++ m'), ← this]
      by_cases h1 : x < y
      · have : arrayLt (x :: l) (y :: m) = true := (arrayLt_cons ..).2 (.inl h1)
        simp [this, h1]
      · by_cases h2 : y < x
        · have a : arrayLt (x :: l) (y :: m) = false := by rw [arrayLt, if_neg h1, if_pos h2]
          have b : arrayLt (y :: m) (x :: l) = true := (arrayLt_cons ..).2 (.inl h2)
          simp [a, b]; omega
        · have h3 : x = y := by omega
          subst h3
          have a : arrayLt (x :: l) (x :: m) = arrayLt l m := by rw [arrayLt]; simp
          have b : arrayLt (x :: m) (x :: l) = arrayLt m l := by rw [arrayLt]; simp
          simp [a, b]

/-- C49. The order is that of the numbers, and so of the texts, which have the same length. -/
theorem C49_value (u v : Uuid) : lt u v = true ↔ value u < value v := by
  have h0 := u.d1.isLt; have g0 := v.d1.isLt
  have h1 := u.a.isLt; have g1 := v.a.isLt
  have h2 := u.b.isLt; have g2 := v.b.isLt
  have h3 := u.c.isLt; have g3 := v.c.isLt
  have h4 := u.e0.isLt; have g4 := v.e0.isLt
  have h5 := u.e1.isLt; have g5 := v.e1.isLt
  have h6 := u.e2.isLt; have g6 := v.e2.isLt
  have h7 := u.e3.isLt; have g7 := v.e3.isLt
  have h8 := u.e4.isLt; have g8 := v.e4.isLt
  have h9 := u.e5.isLt; have g9 := v.e5.isLt
  have key : lt u v = true ↔ u.d1.toNat < v.d1.toNat ∨ (u.d1.toNat = v.d1.toNat ∧
      (arrayLt (data2 u ++ data3 u) (data2 v ++ data3 v) = true)) := by
    unfold lt
    by_cases a1 : u.d1.toNat < v.d1.toNat
    · simp [a1]
    · by_cases a2 : u.d1.toNat > v.d1.toNat
      · rw [if_neg a1, if_pos a2]; simp; omega
      · have a3 : u.d1.toNat = v.d1.toNat := by omega
        rw [if_neg a1, if_neg a2]
        simp only [a3, true_and, Nat.lt_irrefl, false_or]
        exact arrayLt_append _ _ _ _ (by simp [data2])
  rw [key]
  simp only [data2, data3, List.cons_append, List.nil_append, arrayLt_cons]
  simp only [arrayLt, Bool.false_eq_true, and_false, or_false]
  have s : ∀ w : Uuid, value w = w.d1.toNat * 2 ^ 96 + (w.a.toNat * 2 ^ 80 +
      (w.b.toNat * 2 ^ 64 + (w.c.toNat * 2 ^ 48 + (w.e0.toNat * 2 ^ 40 + (w.e1.toNat * 2 ^ 32 +
      (w.e2.toNat * 2 ^ 24 + (w.e3.toNat * 2 ^ 16 + (w.e4.toNat * 2 ^ 8 + w.e5.toNat)))))))) := by
    intro w; unfold value; omega
  rw [s u, s v, lex_step, lex_step, lex_step, lex_step, lex_step, lex_step, lex_step, lex_step,
    lex_step]
  all_goals omega

/-- The digits of the text, without the dashes, spell that number. -/
example : digitsVal ((print ⟨0x10, 2, 3, 4, 5, 6, 7, 8, 9, 0xff⟩).filter (· != '-'))
    = value ⟨0x10, 2, 3, 4, 5, 6, 7, 8, 9, 0xff⟩ := by decide

example : value ⟨1, 2, 3, 4, 0, 0, 0, 0, 0, 0⟩ < value ⟨1, 2, 4, 0, 0, 0, 0, 0, 0, 0⟩ := by decide

/-- C49. Equal UUIDs have equal hashes. -/
theorem C49_hash (u v : Uuid) (h : eq u v = true) : hash u = hash v := by
  rw [(C49_equality u v).1.mp h]

example : ∃ u v w : Uuid, lt u v = true ∧ lt v w = true :=
  ⟨⟨1, 2, 3, 4, 0, 0, 0, 0, 0, 0⟩, ⟨1, 2, 4, 0, 0, 0, 0, 0, 0, 0⟩,
    ⟨1, 2, 4, 0, 0, 0, 0, 0, 0, 9⟩, by decide, by decide⟩

end Verif.Uuid
