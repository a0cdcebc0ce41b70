import Verif.Path.Spec

/-! The index of an array item in a path: what `stoll` and `arrayIndex` accept. -/
namespace Verif.Path

theorem isSpace_iff (c : Char) : isSpace c = true ↔ Blank c := by
  simp [isSpace, Blank]
  constructor
  · rintro (h | ⟨h1, h2⟩)
    · exact .inl h
    · right
      have h : c = Char.ofNat c.toNat := by simp
      have h3 : c.toNat = 9 ∨ c.toNat = 10 ∨ c.toNat = 11 ∨ c.toNat = 12 ∨ c.toNat = 13 := by omega
      rcases h3 with h3 | h3 | h3 | h3 | h3 <;> rw [h3] at h <;> subst h <;> simp
  · rintro (h | h | h | h | h | h) <;> subst h <;> simp <;> decide

theorem takeWhile_split (p : Char → Bool) (a : Str) (b : Str) (ha : ∀ c ∈ a, p c = true)
    (hb : ∀ c, b.head? = some c → p c = false) :
    (a ++ b).takeWhile p = a ∧ (a ++ b).dropWhile p = b := by
  rw [List.takeWhile_append_of_pos ha, List.dropWhile_append_of_pos ha]
  cases b with
  | nil => simp
  | cons c b => simp [hb c rfl]

theorem mem_takeWhile' {p : Char → Bool} : ∀ {l : Str} {c : Char}, c ∈ l.takeWhile p → p c = true := by
  intro l
  induction l with
  | nil => simp
  | cons d l ih =>
    intro c hc
    simp only [List.takeWhile_cons] at hc
    split at hc
    · simp only [List.mem_cons] at hc
      rcases hc with rfl | hc
      · assumption
      · exact ih hc
    · simp at hc

theorem not_digit_of_space {c : Char} (h : c.isDigit = true) : isSpace c = false := by
  simp [isSpace, Char.isDigit] at *
  refine ⟨?_, ?_⟩
  · intro e; subst e; simp at h
  · intro _
    have : (48 : Nat) ≤ c.val.toNat := h.1
    show (14 : Nat) ≤ c.val.toNat
    omega

/-- The decimal number read by `stoll` after white space and a sign. -/
theorem stoll_parts {ws sign ds : Str} (hws : ∀ c ∈ ws, Blank c) (hds : ds ≠ [])
    (hd : ∀ c ∈ ds, c.isDigit = true) (hsign : sign = [] ∨ sign = ['+'] ∨ sign = ['-']) :
    stoll (ws ++ sign ++ ds ++ [']']) =
      (let v : Int := if sign = ['-'] then -(Nat.ofDigitChars 10 ds 0 : Int) else Nat.ofDigitChars 10 ds 0
      if -9223372036854775808 ≤ v ∧ v ≤ 9223372036854775807 then
        some (v, ws.length + sign.length + ds.length) else none) := by
  obtain ⟨d, ds', rfl⟩ : ∃ d ds', ds = d :: ds' := by
    cases ds with
    | nil => exact absurd rfl hds
    | cons d ds' => exact ⟨d, ds', rfl⟩
  have hd0 := hd d (by simp)
  have hsp := not_digit_of_space hd0
  have hm : d ≠ '-' := by intro e; subst e; simp at hd0
  have hp : d ≠ '+' := by intro e; subst e; simp at hd0
  have h1 := takeWhile_split isSpace ws (sign ++ (d :: ds') ++ [']'])
    (fun c hc => (isSpace_iff c).2 (hws c hc)) (by
      rcases hsign with rfl | rfl | rfl <;> intro c hc <;> simp at hc <;> subst hc
      · exact hsp
      · decide
      · decide)
  have h2 := takeWhile_split Char.isDigit (d :: ds') [']'] hd (by simp)
  have e : ws ++ sign ++ (d :: ds') ++ [']'] = ws ++ (sign ++ (d :: ds') ++ [']']) := by simp
  unfold stoll
  rw [e, h1.1, h1.2]
  rcases hsign with rfl | rfl | rfl
  · simp only [List.nil_append, List.cons_append, List.head?_cons, Option.some.injEq, hm, hp,
      decide_false, Bool.or_self, Bool.false_eq_true, if_false]
    rw [← List.cons_append, h2.1]
    simp
  · simp only [List.cons_append, List.nil_append, List.head?_cons, Option.some.injEq,
      decide_true, Bool.or_true, if_true, List.drop_succ_cons, List.drop_zero]
    rw [← List.cons_append, h2.1]
    simp
  · simp only [List.cons_append, List.nil_append, List.head?_cons, Option.some.injEq,
      decide_true, Bool.true_or, if_true, List.drop_succ_cons, List.drop_zero]
    rw [← List.cons_append, h2.1]
    simp

/-- What `stoll` reads. -/
theorem stoll_inv {t : Str} {v : Int} {pos : Nat} (h : stoll t = some (v, pos)) :
    ∃ ws sign ds r, t = ws ++ sign ++ ds ++ r ∧ (∀ c ∈ ws, Blank c) ∧ ds ≠ [] ∧
      (∀ c ∈ ds, c.isDigit = true) ∧ pos = ws.length + sign.length + ds.length ∧
      (((sign = [] ∨ sign = ['+']) ∧ v = Nat.ofDigitChars 10 ds 0) ∨
        (sign = ['-'] ∧ v = -(Nat.ofDigitChars 10 ds 0 : Int))) := by
  unfold stoll at h
  have ht : t = t.takeWhile isSpace ++ t.dropWhile isSpace := List.takeWhile_append_dropWhile.symm
  have hws : ∀ c ∈ t.takeWhile isSpace, Blank c := fun c hc => (isSpace_iff c).1 (mem_takeWhile' hc)
  generalize t.takeWhile isSpace = ws at h ht hws
  generalize t.dropWhile isSpace = u at h ht
  subst ht
  have key : ∀ sign u', u = sign ++ u' → (sign = [] ∨ sign = ['+'] ∨ sign = ['-']) →
      (decide (u.head? = some '-') = decide (sign = ['-'])) →
      (decide (u.head? = some '+') = decide (sign = ['+'])) →
      ∃ ws' sign ds r, ws ++ u = ws' ++ sign ++ ds ++ r ∧ (∀ c ∈ ws', Blank c) ∧ ds ≠ [] ∧
      (∀ c ∈ ds, c.isDigit = true) ∧ pos = ws'.length + sign.length + ds.length ∧
      (((sign = [] ∨ sign = ['+']) ∧ v = Nat.ofDigitChars 10 ds 0) ∨
        (sign = ['-'] ∧ v = -(Nat.ofDigitChars 10 ds 0 : Int))) := by
    intro sign u' hu hs h1 h2
    have h3 : (u.head? = some '-') = (sign = ['-']) := by
      have := decide_eq_decide.1 h1; exact propext this
    simp only [h2, h3] at h
    have hd : (if (decide (sign = ['-']) || decide (sign = ['+'])) = true then u.drop 1 else u) = u' := by
      rcases hs with rfl | rfl | rfl <;> simp [hu]
    have hl : (if (decide (sign = ['-']) || decide (sign = ['+'])) = true then 1 else 0) = sign.length := by
      rcases hs with rfl | rfl | rfl <;> simp
    rw [hd, hl] at h
    have hu' : u' = u'.takeWhile Char.isDigit ++ u'.dropWhile Char.isDigit :=
      List.takeWhile_append_dropWhile.symm
    have hdd : ∀ c ∈ u'.takeWhile Char.isDigit, c.isDigit = true := fun c hc => mem_takeWhile' hc
    generalize u'.takeWhile Char.isDigit = ds at h hu' hdd
    generalize u'.dropWhile Char.isDigit = r at hu'
    by_cases hds : ds = []
    · rw [if_pos hds] at h; cases h
    · rw [if_neg hds] at h
      by_cases hsg : sign = ['-']
      · rw [if_pos hsg] at h
        split at h
        · cases h
          exact ⟨ws, sign, ds, r, by rw [hu, hu']; simp, hws, hds, hdd, rfl, .inr ⟨hsg, rfl⟩⟩
        · cases h
      · rw [if_neg hsg] at h
        split at h
        · cases h
          refine ⟨ws, sign, ds, r, by rw [hu, hu']; simp, hws, hds, hdd, rfl, .inl ⟨?_, rfl⟩⟩
          rcases hs with hs | hs | hs
          · exact .inl hs
          · exact .inr hs
          · exact absurd hs hsg
        · cases h
  match u, key with
  | [], key => exact key [] [] rfl (.inl rfl) (by simp) (by simp)
  | c :: w, key =>
    by_cases h1 : c = '-'
    · subst h1; exact key ['-'] w rfl (.inr (.inr rfl)) (by simp) (by simp)
    · by_cases h2 : c = '+'
      · subst h2; exact key ['+'] w rfl (.inr (.inl rfl)) (by simp) (by simp)
      · exact key [] (c :: w) rfl (.inl rfl) (by simp [h1]) (by simp [h2])

/-- `arrayIndex` finds the designated item, and nothing else. -/
theorem arrayIndex_iff (s : Str) (size i : Nat) (hs : size ≤ 9223372036854775807) :
    arrayIndex s size = some i ↔ Designates s size i := by
  constructor
  · intro h
    unfold arrayIndex at h
    by_cases hb : s.head? = some '[' ∧ s.getLast? = some ']'
    case neg => rw [if_neg hb] at h; cases h
    rw [if_pos hb] at h
    cases hst : stoll (s.drop 1) with
    | none => rw [hst] at h; cases h
    | some r =>
      obtain ⟨v, pos⟩ := r
      rw [hst] at h
      simp only at h
      by_cases hpos : pos + 2 = s.length
      case neg => rw [if_neg hpos] at h; cases h
      rw [if_pos hpos] at h
      obtain ⟨t, rfl⟩ : ∃ t, s = '[' :: t := by
        cases s with
        | nil => simp at hb
        | cons c t => simp at hb; exact ⟨t, by rw [hb.1]⟩
      obtain ⟨ws, sign, ds, r, rfl, hws, hds, hd, hp, hv⟩ := stoll_inv hst
      obtain ⟨x, rfl⟩ : ∃ x, r = [x] := by
        apply List.length_eq_one_iff.1
        simp at hpos; omega
      have hx : x = ']' := by
        have hb2 := hb.2
        rw [show '[' :: (ws ++ sign ++ ds ++ [x]) = ('[' :: (ws ++ sign ++ ds)) ++ [x] by simp,
          List.getLast?_concat] at hb2
        simpa using hb2
      subst hx
      generalize hw : (if v < 0 then (size : Int) + v else v) = w at h
      by_cases hix : 0 ≤ w ∧ w < size
      · rw [if_pos hix] at h
        simp only [Option.some.injEq] at h
        refine ⟨ws, sign, ds, rfl, hws, hds, hd, by omega, ?_⟩
        rcases hv with ⟨h1, h2⟩ | ⟨h1, h2⟩
        · left
          rw [if_neg (by omega)] at hw
          exact ⟨h1, by omega⟩
        · right
          refine ⟨h1, ?_⟩
          by_cases h0 : v < 0
          · rw [if_pos h0] at hw; omega
          · rw [if_neg h0] at hw; omega
      · rw [if_neg hix] at h; cases h
  · rintro ⟨ws, sign, ds, rfl, hws, hds, hd, hi, hcase⟩
    have hsign : sign = [] ∨ sign = ['+'] ∨ sign = ['-'] := by
      rcases hcase with ⟨h | h, _⟩ | ⟨h, _⟩ <;> simp [h]
    have hst := stoll_parts hws hds hd hsign
    unfold arrayIndex
    rw [if_pos ⟨rfl, by
      rw [show '[' :: (ws ++ sign ++ ds ++ [']']) = ('[' :: (ws ++ sign ++ ds)) ++ [']'] by simp,
        List.getLast?_concat]⟩]
    rw [List.drop_succ_cons, List.drop_zero, hst]
    generalize hm : Nat.ofDigitChars 10 ds 0 = m at *
    rcases hcase with ⟨hsg, hval⟩ | ⟨hsg, hval⟩
    · have hnm : sign ≠ ['-'] := by rcases hsg with h | h <;> simp [h]
      simp only [if_neg hnm]
      rw [if_pos (by omega)]
      simp only
      rw [if_pos (by simp; omega)]
      have e : (if (m : Int) < 0 then (size : Int) + m else m) = i := by
        rw [if_neg (by omega)]; omega
      rw [e, if_pos (by omega)]
      simp
    · simp only [if_pos hsg]
      rw [if_pos (by omega)]
      simp only
      rw [if_pos (by simp; omega)]
      have e : (if -(m : Int) < 0 then (size : Int) + -m else -m) = i := by
        by_cases h0 : m = 0
        · rw [if_neg (by omega)]; omega
        · rw [if_pos (by omega)]; omega
      rw [e, if_pos (by omega)]
      simp

end Verif.Path
