import Verif.Uuid.Model

/-! Hexadecimal numbers of fixed width. -/
namespace Verif.Uuid

/-- `n` modulo `16^w` with exactly `w` digits. -/
def fw : Nat → Nat → Str
  | 0, _ => []
  | w + 1, n => fw w (n / 16) ++ [Nat.digitChar (n % 16)]

theorem fw_length (w n : Nat) : (fw w n).length = w := by
  induction w generalizing n with
  | zero => rfl
  | succ w ih => simp [fw, ih]

theorem fw_zero (w : Nat) : fw w 0 = List.replicate w '0' := by
  induction w with
  | zero => rfl
  | succ w ih =>
    simp only [fw, Nat.zero_div, ih, Nat.zero_mod]
    rw [List.replicate_succ']; rfl

theorem hexOut_eq (w n : Nat) (hn : n < 16 ^ w) (hw : 0 < w) : hexOut w n = fw w n := by
  unfold hexOut
  induction w generalizing n with
  | zero => omega
  | succ w ih =>
    rw [Nat.toDigits_eq_if (by decide)]
    split
    · rename_i h
      simp only [List.length_singleton, Nat.add_sub_cancel, fw]
      rw [show n / 16 = 0 by omega, fw_zero, Nat.mod_eq_of_lt h]
    · rename_i h
      cases w with
      | zero => simp at hn; omega
      | succ w =>
        have := ih (n / 16) (by rw [Nat.pow_succ] at hn; omega) (by omega)
        simp only [List.length_append, List.length_singleton, fw] at this ⊢
        rw [← List.append_assoc]
        have e : w + 1 + 1 - ((Nat.toDigits 16 (n / 16)).length + 1) =
          w + 1 - (Nat.toDigits 16 (n / 16)).length := by omega
        rw [e, this]

theorem fw_append (a b n : Nat) : fw (a + b) n = fw a (n / 16 ^ b) ++ fw b n := by
  induction b generalizing n with
  | zero => simp [fw]
  | succ b ih =>
    rw [← Nat.add_assoc]
    simp only [fw]
    rw [ih, List.append_assoc, Nat.div_div_eq_div_mul, Nat.pow_succ, Nat.mul_comm 16]

theorem fw_mod (w n : Nat) : fw w (n % 16 ^ w) = fw w n := by
  induction w generalizing n with
  | zero => rfl
  | succ w ih =>
    simp only [fw]
    have h1 : n % 16 ^ (w + 1) / 16 = n / 16 % 16 ^ w := by
      rw [Nat.pow_succ, Nat.mul_comm, Nat.mod_mul_right_div_self]
    have h2 : n % 16 ^ (w + 1) % 16 = n % 16 := by
      rw [Nat.pow_succ, Nat.mul_comm, Nat.mod_mul_right_mod]
    rw [h1, h2, ih]

theorem hexVal_digitChar (n : Nat) (h : n < 16) :
    hexVal (Nat.digitChar n) = n ∧ isHex (Nat.digitChar n) = true := by
  have : ∀ m : Fin 16, hexVal (Nat.digitChar m) = m ∧ isHex (Nat.digitChar m) = true := by
    decide
  exact this ⟨n, h⟩

theorem digitsVal_append (s : Str) (c : Char) :
    digitsVal (s ++ [c]) = 16 * digitsVal s + hexVal c := by
  simp [digitsVal]

theorem digitsVal_fw (w n : Nat) (h : n < 16 ^ w) : digitsVal (fw w n) = n := by
  induction w generalizing n with
  | zero => simp at h; subst h; rfl
  | succ w ih =>
    simp only [fw]
    rw [digitsVal_append, ih (n / 16) (by rw [Nat.pow_succ] at h; omega),
      (hexVal_digitChar (n % 16) (by omega)).1]
    omega

theorem isHex_fw (w n : Nat) : ∀ c ∈ fw w n, isHex c = true := by
  induction w generalizing n with
  | zero => simp [fw]
  | succ w ih =>
    intro c hc
    simp only [fw, List.mem_append, List.mem_singleton] at hc
    rcases hc with hc | rfl
    · exact ih _ c hc
    · exact (hexVal_digitChar _ (by omega)).2

/-- The lower-case form of a character. -/
def lower (c : Char) : Char := if 'A' ≤ c ∧ c ≤ 'F' then Char.ofNat (c.toNat + 32) else c

theorem isHex_cases {c : Char} (h : isHex c = true) :
    hexVal c < 16 ∧ Nat.digitChar (hexVal c) = lower c := by
  have hlist : c ∈ ['0','1','2','3','4','5','6','7','8','9','a','b','c','d','e','f',
      'A','B','C','D','E','F'] := by
    have hc : (48 ≤ c.toNat ∧ c.toNat ≤ 57) ∨ (97 ≤ c.toNat ∧ c.toNat ≤ 102) ∨
        (65 ≤ c.toNat ∧ c.toNat ≤ 70) := by
      simp only [isHex, Bool.or_eq_true, Bool.and_eq_true, decide_eq_true_eq, or_assoc] at h
      exact h
    have he : c = Char.ofNat c.toNat := by simp
    rw [he]
    generalize c.toNat = n at hc
    have : n = 48 ∨ n = 49 ∨ n = 50 ∨ n = 51 ∨ n = 52 ∨ n = 53 ∨ n = 54 ∨ n = 55 ∨ n = 56 ∨
        n = 57 ∨ n = 97 ∨ n = 98 ∨ n = 99 ∨ n = 100 ∨ n = 101 ∨ n = 102 ∨ n = 65 ∨ n = 66 ∨
        n = 67 ∨ n = 68 ∨ n = 69 ∨ n = 70 := by omega
    rcases this with h|h|h|h|h|h|h|h|h|h|h|h|h|h|h|h|h|h|h|h|h|h <;> subst h <;> decide
  revert hlist
  revert c
  have : ∀ c ∈ ['0','1','2','3','4','5','6','7','8','9','a','b','c','d','e','f',
      'A','B','C','D','E','F'], hexVal c < 16 ∧ Nat.digitChar (hexVal c) = lower c := by decide
  intro c _ hc
  exact this c hc

theorem digitsVal_lt (s : Str) (h : ∀ c ∈ s, isHex c = true) :
    digitsVal s < 16 ^ s.length ∧ fw s.length (digitsVal s) = s.map lower := by
  induction hl : s.length generalizing s with
  | zero =>
    have : s = [] := List.length_eq_zero_iff.mp hl
    subst this; exact ⟨by decide, rfl⟩
  | succ n ih =>
    obtain ⟨t, c, rfl⟩ : ∃ t c, s = t ++ [c] := by
      have hne : s ≠ [] := by intro e; subst e; simp at hl
      exact ⟨s.dropLast, s.getLast hne, (List.dropLast_concat_getLast hne).symm⟩
    have hlt : t.length = n := by simp at hl; exact hl
    obtain ⟨h1, h2⟩ := ih t (fun c hc => h c (by simp [hc])) hlt
    obtain ⟨h3, h4⟩ := isHex_cases (h c (by simp))
    rw [digitsVal_append]
    refine ⟨by rw [Nat.pow_succ]; omega, ?_⟩
    simp only [fw, List.map_append, List.map_cons, List.map_nil]
    rw [show (16 * digitsVal t + hexVal c) / 16 = digitsVal t by omega,
      show (16 * digitsVal t + hexVal c) % 16 = hexVal c by omega, h2, h4]

/-! ### The shape of the text form -/

theorem wellFormed_hex (n : Nat) (ps : List Pat) (s : Str) :
    wellFormed (List.replicate n .hex ++ ps) s = true ↔
      ∃ u v, s = u ++ v ∧ u.length = n ∧ (∀ c ∈ u, isHex c = true) ∧
        wellFormed ps v = true := by
  induction n generalizing s with
  | zero =>
    constructor
    · intro h; exact ⟨[], s, rfl, rfl, by simp, h⟩
    · rintro ⟨u, v, rfl, hu, _, h⟩
      have : u = [] := List.length_eq_zero_iff.mp hu
      subst this; exact h
  | succ n ih =>
    rw [List.replicate_succ, List.cons_append]
    cases s with
    | nil =>
      simp only [wellFormed, Bool.false_eq_true, false_iff]
      rintro ⟨u, v, e, hu, _⟩
      have : u = [] := (List.append_eq_nil_iff.mp e.symm).1
      subst this; simp at hu
    | cons c s =>
      simp only [wellFormed, Bool.and_eq_true, ih]
      constructor
      · rintro ⟨hc, u, v, rfl, hu, hh, hv⟩
        exact ⟨c :: u, v, rfl, by simp [hu], by simpa [hc] using hh, hv⟩
      · rintro ⟨u, v, e, hu, hh, hv⟩
        cases u with
        | nil => simp at hu
        | cons d u =>
          simp at e hu hh
          obtain ⟨rfl, rfl⟩ := e
          exact ⟨hh.1, u, v, rfl, hu, hh.2, hv⟩

theorem wellFormed_dash (ps : List Pat) (s : Str) :
    wellFormed (.dash :: ps) s = true ↔ ∃ v, s = '-' :: v ∧ wellFormed ps v = true := by
  cases s with
  | nil => simp [wellFormed]
  | cons c s =>
    simp only [wellFormed, Bool.and_eq_true, beq_iff_eq, List.cons.injEq]
    constructor
    · rintro ⟨h1, h2⟩; exact ⟨s, ⟨h1, rfl⟩, h2⟩
    · rintro ⟨v, ⟨h1, rfl⟩, h2⟩; exact ⟨h1, h2⟩

/-- `strtoul` of digits followed by something else. -/
theorem strtoul_digits (u v : Str) (hu : ∀ c ∈ u, isHex c = true) (h1 : 2 ≤ u.length)
    (hv : ∀ c, v.head? = some c → isHex c = false) : strtoul (u ++ v) = digitsVal u := by
  have htw : (u ++ v).takeWhile isHex = u := by
    rw [List.takeWhile_append_of_pos hu]
    cases v with
    | nil => simp
    | cons c v => simp [hv c rfl]
  match u, h1 with
  | c :: d :: u, _ =>
    have hd : isHex d = true := hu d (by simp)
    unfold strtoul
    split
    · rename_i e; simp at e; rw [e.2.1] at hd; simp [isHex] at hd
    · rename_i e; simp at e; rw [e.2.1] at hd; simp [isHex] at hd
    · rw [htw]

/-! ### Lexicographic order -/

theorem arrayLt_irrefl (l : List Nat) : arrayLt l l = false := by
  induction l with
  | nil => rfl
  | cons x l ih => simp [arrayLt, ih]

theorem arrayLt_trans {l m k : List Nat} (h1 : arrayLt l m = true) (h2 : arrayLt m k = true) :
    arrayLt l k = true := by
  induction m generalizing l k with
  | nil => cases l <;> simp [arrayLt] at h1
  | cons y m ih =>
    cases k with
    | nil => simp [arrayLt] at h2
    | cons z k =>
      cases l with
      | nil => rfl
      | cons x l =>
        simp only [arrayLt] at h1 h2 ⊢
        by_cases hxy : x < y
        · by_cases hyz : y < z
          · rw [if_pos (by omega)]
          · by_cases hzy : z < y
            · simp [hyz, hzy] at h2
            · rw [if_pos (by omega)]
        · by_cases hyx : y < x
          · simp [hxy, hyx] at h1
          · simp only [hxy, hyx, if_false] at h1
            by_cases hyz : y < z
            · rw [if_pos (by omega)]
            · by_cases hzy : z < y
              · simp [hyz, hzy] at h2
              · simp only [hyz, hzy, if_false] at h2
                rw [if_neg (by omega), if_neg (by omega)]
                exact ih h1 h2

theorem arrayLt_total (l m : List Nat) (hl : l.length = m.length)
    (h1 : arrayLt l m = false) (h2 : arrayLt m l = false) : l = m := by
  induction l generalizing m with
  | nil => cases m with
    | nil => rfl
    | cons => simp at hl
  | cons x l ih =>
    cases m with
    | nil => simp at hl
    | cons y m =>
      simp only [arrayLt] at h1 h2
      by_cases hxy : x < y
      · simp [hxy] at h1
      · by_cases hyx : y < x
        · simp [hyx] at h2
        · simp only [hxy, hyx, if_false] at h1 h2
          rw [ih m (by simpa using hl) h1 h2, show x = y by omega]

end Verif.Uuid
