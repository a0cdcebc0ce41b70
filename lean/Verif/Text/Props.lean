import Verif.Text.FixedString

/-! Properties C45, C46 and C68. -/
namespace Verif.Text

/-! ### Specification: strings of at most `N` bytes without NUL -/

/-- What a C++ reader sees of a sequence of bytes as a C string. -/
def text (v : Buf) : Buf := v.takeWhile (· ≠ 0)

/-- The effect of the operations on the content of a string of capacity `N`. -/
def specStep (N : Nat) (s : Buf) : Op → Buf
  | .assign v => (text v).take N
  | .assignString _ other => (text other).take N
  | .append v => (s ++ text v).take N
  | .appendString other => (s ++ text other).take N
  | .pushBack c => if c = 0 then s else (s ++ [c]).take N
  | .popBack => s.dropLast
  | .removePrefix n => s.drop n
  | .removeSuffix n => s.take (s.length - n)
  | .clear => []
  | .setAt i c => if c = 0 then s.take (if i < s.length then i else s.length) else s.set i c
  | .swap other => text other
  | .assignOwn pos n => if s.length < pos then s else (s.drop pos).take n
  | .appendOwn pos n => if s.length < pos then s else (s ++ (s.drop pos).take n).take N

/-- What callers must respect: other strings are well-formed `String`s, `remove_prefix`
does not remove more than there is, and a string is not assigned a part of itself that is longer than
what is before that part. -/
def Op.ok (N : Nat) (s : Buf) : Op → Prop
  | .assignString S other => other.length = S + 1 ∧ 0 ∈ other
  | .appendString other => 0 ∈ other
  | .removePrefix n => n ≤ s.length
  | .swap other => other.length = N + 1 ∧ 0 ∈ other
  | .assignOwn pos n => s.length < pos ∨ ((s.drop pos).take n).length ≤ pos
  | _ => True

def okAll (N : Nat) : Buf → List Op → Prop
  | _, [] => True
  | s, o :: os => o.ok N s ∧ okAll N (specStep N s o) os

/-- A buffer of a `String<N>` with that content: the content fits, has no NUL and is
followed by a NUL inside the buffer. -/
def Holds (N : Nat) (b : Buf) (s : Buf) : Prop :=
  b.length = N + 1 ∧ s.length ≤ N ∧ (∀ x ∈ s, x ≠ 0) ∧ ∃ g, b = s ++ 0 :: g

/-! ### Lemmas -/

theorem takeWhile_nz (s g : Buf) (h : ∀ x ∈ s, x ≠ 0) :
    (s ++ 0 :: g).takeWhile (· ≠ 0) = s := by
  rw [List.takeWhile_append_of_pos (by simpa using h)]
  simp

theorem Holds.cstr {N b s} (h : Holds N b s) : cstr b = some s := by
  obtain ⟨_, _, hz, g, rfl⟩ := h
  unfold Text.cstr
  rw [if_pos (by simp), takeWhile_nz s g hz]

theorem text_nz (v : Buf) : ∀ x ∈ text v, x ≠ 0 := by
  intro x hx
  have h := List.all_takeWhile (l := v) (p := fun x => decide (x ≠ 0))
  rw [List.all_eq_true] at h
  simpa using h x hx

theorem text_split {b : Buf} (h : 0 ∈ b) : ∃ g, b = text b ++ 0 :: g := by
  induction b with
  | nil => simp at h
  | cons x b ih =>
    by_cases hx : x = 0
    · subst hx; exact ⟨b, by simp [text]⟩
    · have : 0 ∈ b := by
        rcases List.mem_cons.mp h with h | h
        · exact absurd h.symm hx
        · exact h
      obtain ⟨g, hg⟩ := ih this
      refine ⟨g, ?_⟩
      simp only [text, ne_eq, hx, not_false_eq_true, decide_true, List.takeWhile_cons_of_pos,
        List.cons_append]
      exact congrArg (x :: ·) hg

theorem holds_of_nul {N : Nat} {b : Buf} (hl : b.length = N + 1) (h : 0 ∈ b) :
    Holds N b (text b) := by
  obtain ⟨g, hg⟩ := text_split h
  refine ⟨hl, ?_, text_nz b, g, hg⟩
  have := congrArg List.length hg
  simp at this
  omega

theorem text_take (n : Nat) (v : Buf) : text (v.take n) = (text v).take n := by
  induction v generalizing n with
  | nil => simp [text]
  | cons x v ih =>
    cases n with
    | zero => simp [text]
    | succ n =>
      by_cases hx : x = 0
      · subst hx; simp [text]
      · have := ih n
        simp only [text] at this ⊢
        rw [List.take_succ_cons, List.takeWhile_cons_of_pos (by simpa using hx),
          List.takeWhile_cons_of_pos (by simpa using hx), this, List.take_succ_cons]

theorem text_length_le (v : Buf) : (text v).length ≤ v.length :=
  (List.takeWhile_prefix _).length_le

theorem text_append_zero (v g : Buf) : text (v ++ 0 :: g) = text v := by
  induction v with
  | nil => simp [text]
  | cons x v ih =>
    by_cases hx : x = 0
    · subst hx; simp [text]
    · simp only [text] at ih ⊢
      rw [List.cons_append, List.takeWhile_cons_of_pos (by simpa using hx),
        List.takeWhile_cons_of_pos (by simpa using hx), ih]

theorem text_append {s : Buf} (hs : ∀ x ∈ s, x ≠ 0) (v : Buf) : text (s ++ v) = s ++ text v := by
  unfold text
  rw [List.takeWhile_append_of_pos (by simpa using hs)]

/-- `copy` then the terminator behind it. -/
theorem copy_store {b : Buf} {i : Nat} {v : Buf} (h : i + v.length < b.length) :
    ∃ b', (copy b i v).bind (store · (i + v.length) 0) = some b' ∧
      b' = b.take i ++ v ++ 0 :: b.drop (i + v.length + 1) := by
  refine ⟨_, ?_, rfl⟩
  unfold copy store
  split
  · rename_i hv
    subst hv
    simp only [List.length_nil, Nat.add_zero, Option.bind_some] at h ⊢
    rw [if_pos h]
    simp only [Option.some.injEq, List.append_nil]
    rw [List.set_eq_take_append_cons_drop, if_pos h]
  · rw [if_pos (by omega)]
    have hl : (b.take i ++ v).length = i + v.length := by simp; omega
    simp only [Option.bind_some]
    rw [if_pos (by simp; omega)]
    rw [← hl, List.set_append_right _ _ (Nat.le_refl _), Nat.sub_self, hl]
    congr 1
    congr 1
    generalize i + v.length = k at *
    rw [← List.drop_drop, List.drop_one]
    cases hd : b.drop k with
    | nil => have := congrArg List.length hd; simp at this; omega
    | cons x t => rfl

theorem assign_ok {N : Nat} {b : Buf} (hb : b.length = N + 1) (v : Buf) :
    ∃ b', assign N b v = some b' ∧ Holds N b' ((text v).take N) := by
  unfold assign
  have hl : (v.take (min v.length N)).length = min v.length N := by simp
  obtain ⟨b', h1, h2⟩ := copy_store (b := b) (i := 0) (v := v.take (min v.length N))
    (by rw [hl]; omega)
  rw [Nat.zero_add, hl] at h1
  refine ⟨b', h1, ?_⟩
  have hb' : b'.length = N + 1 := by
    rw [h2]; simp; omega
  have h0 : 0 ∈ b' := by rw [h2]; simp
  have := holds_of_nul hb' h0
  rw [h2] at this ⊢
  simp only [List.take_zero, List.nil_append] at this ⊢
  rw [text_append_zero, text_take] at this
  have e : (text v).take (min v.length N) = (text v).take N := by
    have := text_length_le v
    rw [List.take_eq_take_iff]; omega
  rw [e] at this
  exact this

theorem append_ok {N : Nat} {b s : Buf} (h : Holds N b s) (v : Buf) :
    ∃ b', append N b v = some b' ∧ Holds N b' ((s ++ text v).take N) := by
  have hc := h.cstr
  obtain ⟨hl, hs, hz, g, rfl⟩ := h
  unfold append
  rw [hc]
  simp only [Option.bind_some, hs, if_true]
  have hm : (v.take (min v.length (N - s.length))).length = min v.length (N - s.length) := by
    simp
  simp at hl
  have hst : store (s ++ 0 :: g) (s.length + min v.length (N - s.length)) 0 =
      some ((s ++ 0 :: g).set (s.length + min v.length (N - s.length)) 0) := by
    unfold store; rw [if_pos (by simp; omega)]
  rw [hst]
  simp only [Option.bind_some]
  unfold copy
  -- both branches give `s ++ taken ++ 0 :: rest`
  have goal : ∀ b' : Buf, b' = s ++ v.take (min v.length (N - s.length)) ++
      0 :: (s ++ 0 :: g).drop (s.length + min v.length (N - s.length) + 1) →
      Holds N b' ((s ++ text v).take N) := by
    intro b' hb'
    have hlen : b'.length = N + 1 := by rw [hb']; simp; omega
    have h0 : 0 ∈ b' := by rw [hb']; simp
    have := holds_of_nul hlen h0
    have ht : text b' = (s ++ text v).take N := by
      rw [hb', text_append_zero, text_append hz, text_take, List.take_append,
        List.take_of_length_le hs]
      congr 1
      have := text_length_le v
      rw [List.take_eq_take_iff]; omega
    rw [ht] at this; exact this
  split
  · rename_i hv
    refine ⟨_, rfl, goal _ ?_⟩
    have : min v.length (N - s.length) = 0 := by rw [← hm, hv]; rfl
    rw [hv, this]
    simp
  · refine ⟨_, by rw [if_pos (by simp; omega)], goal _ ?_⟩
    rw [hm, List.take_set_of_le (by omega), List.take_append_of_le_length (Nat.le_refl _),
      List.take_length, List.append_assoc, List.append_assoc]
    congr 2
    rw [List.drop_set, if_neg (by omega), Nat.sub_self]
    generalize hk : s.length + min v.length (N - s.length) = k
    rw [← List.drop_drop, List.drop_one]
    cases hd : (s ++ 0 :: g).drop k with
    | nil => have := congrArg List.length hd; simp at this; omega
    | cons x t => rfl

theorem store_ok {N : Nat} {b s : Buf} (h : Holds N b s) (i : Nat) (hi : i ≤ s.length) :
    ∃ b', store b i 0 = some b' ∧ Holds N b' (s.take i) := by
  obtain ⟨hl, hs, hz, g, rfl⟩ := h
  refine ⟨_, by unfold store; rw [if_pos (by simp; omega)], ?_⟩
  refine ⟨by simpa using hl, by simp; omega, fun x hx => hz x (List.mem_of_mem_take hx), ?_⟩
  refine ⟨(s ++ 0 :: g).drop (i + 1), ?_⟩
  rw [List.set_eq_take_append_cons_drop, if_pos (by simp; omega),
    List.take_append_of_le_length hi]

theorem own_take {N : Nat} {b s : Buf} (h : Holds N b s) {pos n : Nat} (hp : ¬ s.length < pos) :
    (b.drop pos).take (min n (s.length - pos)) = (s.drop pos).take n := by
  obtain ⟨_, _, _, g, rfl⟩ := h
  rw [List.drop_append_of_le_length (by omega), List.take_append_of_le_length (by
    rw [List.length_drop]; omega), ← List.take_take, List.take_of_length_le (i := s.length - pos)
    (by rw [List.length_drop]; exact Nat.le_refl _)]

theorem text_own {N : Nat} {b s : Buf} (h : Holds N b s) {pos n : Nat} :
    text ((s.drop pos).take n) = (s.drop pos).take n := by
  have := text_append (s := (s.drop pos).take n) (fun x hx =>
    h.2.2.1 x (List.mem_of_mem_drop (List.mem_of_mem_take hx))) []
  simpa [text] using this

theorem step_ok {N : Nat} {b s : Buf} (h : Holds N b s) (o : Op) (ho : o.ok N s) :
    ∃ b', step N b o = some b' ∧ Holds N b' (specStep N s o) := by
  cases o with
  | assign v => exact assign_ok h.1 v
  | assignString S other =>
    obtain ⟨h1, h2⟩ := ho
    simp only [step, assignString, specStep]
    rw [if_pos (by omega)]
    obtain ⟨b', e, hb⟩ := assign_ok (N := N) h.1 (other.take S)
    refine ⟨b', e, ?_⟩
    rw [text_take] at hb
    have : (text other).length ≤ S := (holds_of_nul h1 h2).2.1
    rw [List.take_of_length_le this] at hb
    exact hb
  | append v => exact append_ok h v
  | appendString other =>
    simp only [step]
    have hc : cstr other = some (text other) := by
      unfold cstr; rw [if_pos (show 0 ∈ other from ho)]; rfl
    rw [hc]
    have := append_ok h (text other)
    have e : text (text other) = text other := by
      have := text_append (text_nz other) []
      simpa [text] using this
    rw [e] at this
    exact this
  | pushBack c =>
    have := append_ok h [c]
    simp only [step, specStep]
    by_cases hc : c = 0
    · subst hc
      simp only [text, if_true] at this ⊢
      simpa [List.take_of_length_le h.2.1] using this
    · simpa [text, hc] using this
  | popBack =>
    simp only [step, removeSuffix, h.cstr, Option.bind_some, specStep, List.dropLast_eq_take]
    split
    · rename_i h1
      have : s.length = 0 := by omega
      have e : s.length - 1 = 0 := by omega
      rw [e]; exact store_ok h 0 (by omega)
    · exact store_ok h _ (by omega)
  | removePrefix n =>
    simp only [step, removePrefix, h.cstr, Option.bind_some]
    have hn : n ≤ s.length := ho
    rw [if_pos hn]
    have hlen : (s.drop n).length = s.length - n := by simp
    obtain ⟨b', h1, h2⟩ := copy_store (b := b) (i := 0) (v := s.drop n) (by
      have := h.1; have := h.2.1; rw [hlen]; omega)
    rw [Nat.zero_add, hlen] at h1
    refine ⟨b', h1, ?_⟩
    rw [h2]
    have := h.1; have := h.2.1
    refine ⟨by simp; omega, by simp [specStep]; omega,
      fun x hx => h.2.2.1 x (List.mem_of_mem_drop hx), _, by simp [specStep]; rfl⟩
  | removeSuffix n =>
    simp only [step, removeSuffix, h.cstr, Option.bind_some, specStep]
    split
    · have e : s.length - n = 0 := by omega
      rw [e]; exact store_ok h 0 (by omega)
    · exact store_ok h _ (by omega)
  | clear => exact store_ok h 0 (by omega)
  | setAt i c =>
    simp only [step, setAt, h.cstr, Option.bind_some, specStep]
    by_cases hc : c = 0
    · subst hc
      simp only [if_true]
      split
      · exact store_ok h i (by omega)
      · exact ⟨b, rfl, by rw [List.take_length]; exact h⟩
    · simp only [hc, if_false]
      split
      · rename_i hi
        obtain ⟨hl, hs, hz, g, rfl⟩ := h
        refine ⟨_, by unfold store; rw [if_pos (by simp; omega)], by simpa using hl,
          by simpa using hs, ?_, g, by rw [List.set_append_left _ _ hi]⟩
        intro x hx
        rcases List.mem_or_eq_of_mem_set hx with hx | hx
        · exact hz x hx
        · rw [hx]; exact hc
      · rename_i hi
        exact ⟨b, rfl, by rw [List.set_eq_of_length_le (by omega)]; exact h⟩
  | swap other => exact ⟨other, rfl, holds_of_nul ho.1 ho.2⟩
  | assignOwn pos n =>
    simp only [step, assignOwn, h.cstr, Option.bind_some, specStep]
    by_cases hp : s.length < pos
    · rw [if_pos hp, if_pos hp]
      exact ⟨b, rfl, h⟩
    · rw [if_neg hp, if_neg hp]
      have ho' : ((s.drop pos).take n).length ≤ pos := ho.resolve_left hp
      rw [List.length_take, List.length_drop] at ho'
      rw [if_neg (by omega)]
      have e : (b.drop pos).take (min n (s.length - pos)) = (s.drop pos).take n := own_take h hp
      rw [e]
      have := assign_ok h.1 ((s.drop pos).take n)
      rw [text_own h, List.take_of_length_le (i := N) (by
        rw [List.length_take, List.length_drop]; have := h.2.1; omega)] at this
      exact this
  | appendOwn pos n =>
    simp only [step, appendOwn, h.cstr, Option.bind_some, specStep]
    by_cases hp : s.length < pos
    · rw [if_pos hp, if_pos hp]
      exact ⟨b, rfl, h⟩
    · rw [if_neg hp, if_neg hp, if_pos h.2.1]
      have key := append_ok h ((s.drop pos).take n)
      rw [text_own h] at key
      simp only [append, h.cstr, Option.bind_some, if_pos h.2.1] at key
      have hlen : ((s.drop pos).take n).length = min n (s.length - pos) := by
        rw [List.length_take, List.length_drop]
      rw [hlen] at key
      generalize hk : min (min n (s.length - pos)) (N - s.length) = k at *
      have hst : store b (s.length + k) 0 = some (b.set (s.length + k) 0) := by
        unfold store
        rw [if_pos (by have := h.1; have := h.2.1; omega)]
      rw [hst] at key ⊢
      simp only [Option.bind_some] at key ⊢
      have e : ((b.set (s.length + k) 0).drop pos).take k = ((s.drop pos).take n).take k := by
        obtain ⟨_, _, _, g, rfl⟩ := h
        rw [List.set_append_right _ _ (by omega), List.take_take]
        rw [List.drop_append_of_le_length (by omega), List.take_append_of_le_length (by
          rw [List.length_drop]; omega), show min k n = k by omega]
      rw [e]
      exact key

/-! ### C45 -/

/-- C45. Whatever the capacity and the (permitted) operations, starting from any
`String<N>`: no access leaves the buffer, and afterwards the buffer holds at most `N`
characters followed by a terminator inside it, namely those of the specification: an
assignment or append keeps the longest prefix that fits. -/
theorem C45_capacity_partial (N : Nat) (ops : List Op) :
    ∀ (b s : Buf), Holds N b s → okAll N s ops →
      ∃ b', run N b ops = some b' ∧ Holds N b' (ops.foldl (specStep N) s) := by
  induction ops with
  | nil => intro b s h _; exact ⟨b, rfl, h⟩
  | cons o os ih =>
    intro b s h hok
    obtain ⟨b1, e1, h1⟩ := step_ok h o hok.1
    obtain ⟨b2, e2, h2⟩ := ih b1 _ h1 hok.2
    exact ⟨b2, by simp [run, e1, e2], h2⟩

/-- C45. Construction from any bytes, over uninitialised memory, gives such a string. -/
theorem C45_construct (N : Nat) (mem v : Buf) (hm : mem.length = N + 1) :
    Holds N (new N) [] ∧ ∃ b, assign N mem v = some b ∧ Holds N b ((text v).take N) := by
  refine ⟨⟨by simp [new], by simp, by simp, List.replicate N 0, ?_⟩, assign_ok hm v⟩
  simp [new, List.replicate_succ]

/-- The kept part is a prefix of the bytes given, and all of them if they fit. -/
theorem C45_prefix (N : Nat) (s v : Buf) :
    (s ++ text v).take N <+: s ++ text v ∧
      ((s ++ text v).length ≤ N → (s ++ text v).take N = s ++ text v) ∧
      (N ≤ (s ++ text v).length → ((s ++ text v).take N).length = N) :=
  ⟨List.take_prefix _ _, fun h => List.take_of_length_le h, fun h => by
    rw [List.length_take]; omega⟩

example : okAll 3 [] [.append [1, 2], .append [3, 4, 5], .pushBack 6, .removePrefix 1,
    .pushBack 7, .popBack] ∧
    [Op.append [1, 2], .append [3, 4, 5], .pushBack 6, .removePrefix 1, .pushBack 7].foldl
      (specStep 3) [] = [2, 3, 7] := by
  constructor
  · simp [okAll, Op.ok, specStep, text]
  · decide

/-- C45 is false of the code for `remove_prefix` with more than there is: undefined
behaviour (the copy gets a reversed range and the terminator is written far outside). -/
theorem C45_fails : ∃ b, Holds 3 b [1] ∧ removePrefix b 2 = none :=
  ⟨[1, 0, 0, 0], ⟨rfl, by decide, by decide, [0, 0], rfl⟩, by decide⟩

/-- C45 is false of the code for a string that is assigned a part of itself which overlaps the place
it is copied to, as `s = s.substr(1)` of any string of at least three characters: undefined. -/
theorem C45_overlap_fails (N : Nat) (b s : Buf) (h : Holds N b s) (pos n : Nat)
    (ho : pos < ((s.drop pos).take n).length) : step N b (.assignOwn pos n) = none := by
  rw [List.length_take, List.length_drop] at ho
  simp only [step, assignOwn, h.cstr, Option.bind_some]
  rw [if_neg (by omega), if_pos ho]

example : Holds 3 [7, 8, 9, 0] [7, 8, 9] ∧ 1 < (([7, 8, 9] : Buf).drop 1 |>.take 10).length ∧
    step 3 [7, 8, 9, 0] (.assignOwn 1 10) = none ∧
    step 9 [7, 8, 9, 0, 0, 0, 0, 0, 0, 0] (.appendOwn 1 10) = some [7, 8, 9, 8, 9, 0, 0, 0, 0, 0] :=
  ⟨⟨rfl, by decide, by decide, [], rfl⟩, by decide, by decide, by decide⟩

/-! ### C46 -/

/-- C46. `CopyString(dest, size, src)` into memory with at least `size + 1` bytes stays
inside its first `size + 1` bytes, and leaves there the first `min(size, len)` characters
of the source followed by NUL; a null source gives the empty string. -/
theorem C46_copyString (dest : Buf) (size : Nat) (hd : size + 1 ≤ dest.length)
    (src : Option Buf) (hs : ∀ v, src = some v → 0 ∈ v) :
    ∃ b, copyString dest size src = some b ∧
      b.length = dest.length ∧ b.drop (size + 1) = dest.drop (size + 1) ∧
      ∃ g, b = ((src.map text).getD []).take size ++ 0 :: g := by
  cases src with
  | none =>
    refine ⟨dest.set 0 0, ?_, by simp, ?_, dest.drop 1, ?_⟩
    · simp only [copyString, store]; rw [if_pos (by omega)]
    · rw [List.drop_set_of_lt (by omega)]
    · cases dest with
      | nil => simp at hd
      | cons x d => simp
  | some v =>
    have hc : cstr v = some (text v) := by unfold cstr; rw [if_pos (hs v rfl)]; rfl
    simp only [copyString, hc, Option.bind_some, Option.map_some, Option.getD_some]
    have hm : ((text v).take (min size (text v).length)).length = min size (text v).length := by
      simp
    have he : (text v).take (min size (text v).length) = (text v).take size := by
      rw [List.take_eq_take_iff]; omega
    obtain ⟨b, h1, h2⟩ := copy_store (b := dest) (i := 0)
      (v := (text v).take (min size (text v).length)) (by rw [hm]; omega)
    rw [Nat.zero_add, hm] at h1
    refine ⟨b, h1, ?_, ?_, dest.drop (min size (text v).length + 1), ?_⟩
    · rw [h2]; simp; omega
    · rw [h2, Nat.zero_add, hm]
      simp only [List.take_zero, List.nil_append]
      rw [List.drop_append, hm]
      have e1 : ((text v).take (min size (text v).length)).drop (size + 1) = [] := by
        rw [List.drop_eq_nil_iff, hm]; omega
      have e2 : size + 1 - min size (text v).length =
          (size - min size (text v).length) + 1 := by omega
      rw [e1, List.nil_append, e2, List.drop_succ_cons, List.drop_drop]
      congr 1
      omega
    · rw [h2, Nat.zero_add, hm, he]; simp

example : copyString [9, 9, 9, 9, 9] 2 (some [5, 6, 7, 0]) = some [5, 6, 0, 9, 9] := by decide
example : copyString [9, 9, 9, 9, 9] 2 (some [5, 0]) = some [5, 0, 9, 9, 9] := by decide

/-- The bound is tight: with a buffer of exactly `size` bytes a source of `size` characters
is written past the end. `size` is thus the capacity without the terminator, as all callers
pass it (AnySimpleConverter.h:54-69, Publication/Field.cpp:596-600, 789-793). -/
theorem C46_tight (size : Nat) (dest v : Buf) (hd : dest.length = size) (hv : 0 ∈ v)
    (hl : size ≤ (text v).length) : copyString dest size (some v) = none := by
  have hc : cstr v = some (text v) := by unfold cstr; rw [if_pos hv]; rfl
  simp only [copyString, hc, Option.bind_some]
  rw [Nat.min_eq_left hl]
  unfold copy store
  split
  · rename_i e
    simp only [Option.bind_some]
    rw [if_neg (by omega)]
  · have : ((text v).take size).length = size := by simp; omega
    rw [if_pos (by omega)]
    simp only [Option.bind_some]
    rw [if_neg (by simp; omega)]

example : (0 : Nat) ∈ [5, 6, 0] ∧ 2 ≤ (text [5, 6, 0]).length := by decide

/-! ### C68: comparison -/

/-- Lexicographic order of byte strings. -/
def Lex : Buf → Buf → Prop
  | [], [] => False
  | [], _ :: _ => True
  | _ :: _, [] => False
  | x :: xs, y :: ys => x < y ∨ (x = y ∧ Lex xs ys)

theorem traitsCompare_cases (s t : Buf) :
    let len := min s.length t.length
    let r := traitsCompare (s.take len) (t.take len)
    (r < 0 → Lex s t) ∧ (r > 0 → Lex t s) ∧
      (r = 0 → (s.length < t.length → Lex s t) ∧ (t.length < s.length → Lex t s) ∧
        (s.length = t.length → s = t)) := by
  induction s generalizing t with
  | nil => cases t <;> simp [traitsCompare, Lex]
  | cons x s ih =>
    cases t with
    | nil => simp [traitsCompare, Lex]
    | cons y t =>
      simp only [List.length_cons, Nat.add_min_add_right, List.take_succ_cons, traitsCompare]
      by_cases h1 : x < y
      · simp [h1, Lex]
      · by_cases h2 : y < x
        · simp [h1, h2, Lex]
        · have e : x = y := by omega
          subst e
          have := ih t
          simp only [Nat.lt_irrefl, if_false, Lex, true_and, false_or, Nat.add_lt_add_iff_right,
            Nat.add_right_cancel_iff, List.cons.injEq] at this ⊢
          exact this

theorem Lex.irrefl (s : Buf) : ¬ Lex s s := by
  induction s with
  | nil => simp [Lex]
  | cons x s ih => simp [Lex, ih]

theorem Lex.asymm {s t : Buf} (h : Lex s t) : ¬ Lex t s := by
  induction s generalizing t with
  | nil => cases t <;> simp_all [Lex]
  | cons x s ih =>
    cases t with
    | nil => simp [Lex] at h
    | cons y t =>
      simp only [Lex] at h ⊢
      rintro (h2 | ⟨h2, h3⟩)
      · rcases h with h | ⟨h, _⟩ <;> omega
      · rcases h with h | ⟨h, h4⟩
        · omega
        · exact ih h4 h3

/-- C68. Comparing two fixed-size strings of any capacities gives the lexicographic order
of their contents: negative if less, zero if the contents are equal, positive if greater.
What is behind the terminators does not matter. The result fits in an `int`. -/
theorem C68_compare (N M : Nat) (b c s t : Buf) (hb : Holds N b s) (hc : Holds M c t) :
    ∃ r, compare b c = some r ∧ (r < 0 ↔ Lex s t) ∧ (r = 0 ↔ s = t) ∧ (r > 0 ↔ Lex t s) ∧
      -2147483648 ≤ r ∧ r ≤ 2147483647 := by
  refine ⟨compareCStr s t, by simp [compare, hb.cstr, hc.cstr], ?_⟩
  have key : (compareCStr s t < 0 → Lex s t) ∧ (compareCStr s t = 0 → s = t) ∧
      (compareCStr s t > 0 → Lex t s) := by
    obtain ⟨h1, h2, h3⟩ := traitsCompare_cases s t
    unfold compareCStr
    simp only
    split
    · rename_i h0
      obtain ⟨h4, h5, h6⟩ := h3 h0
      refine ⟨fun h => h4 ?_, fun h => h6 ?_, fun h => h5 ?_⟩ <;>
        (split at h <;> first | omega | (split at h <;> omega))
    · rename_i h0
      exact ⟨h1, fun h => absurd h h0, h2⟩
  obtain ⟨k1, k2, k3⟩ := key
  have tri : compareCStr s t < 0 ∨ compareCStr s t = 0 ∨ compareCStr s t > 0 := by omega
  have hb1 : ∀ u v : Buf, -1 ≤ traitsCompare u v ∧ traitsCompare u v ≤ 1 := by
    intro u
    induction u with
    | nil => intro v; simp [traitsCompare]
    | cons x u ih =>
      intro v
      cases v with
      | nil => simp [traitsCompare]
      | cons y v =>
        simp only [traitsCompare]
        split
        · simp
        · split
          · simp
          · exact ih v
  have hrange : -2147483648 ≤ compareCStr s t ∧ compareCStr s t ≤ 2147483647 := by
    unfold compareCStr
    simp only
    split
    · split
      · omega
      · split <;> omega
    · have := hb1 (s.take (min s.length t.length)) (t.take (min s.length t.length))
      omega
  refine ⟨⟨k1, ?_⟩, ⟨k2, ?_⟩, ⟨k3, ?_⟩, hrange⟩
  · intro h
    rcases tri with h' | h' | h'
    · exact h'
    · rw [k2 h'] at h; exact absurd h (Lex.irrefl _)
    · exact absurd (k3 h') h.asymm
  · intro h
    subst h
    rcases tri with h' | h' | h'
    · exact absurd (k1 h') (Lex.irrefl _)
    · exact h'
    · exact absurd (k3 h') (Lex.irrefl _)
  · intro h
    rcases tri with h' | h' | h'
    · exact absurd (k1 h') h.asymm
    · rw [k2 h'] at h; exact absurd h (Lex.irrefl _)
    · exact h'

example : Holds 3 [1, 2, 0, 7] [1, 2] ∧ Holds 2 [1, 2, 0] [1, 2] :=
  ⟨⟨rfl, by decide, by decide, [7], rfl⟩, ⟨rfl, by decide, by decide, [], rfl⟩⟩

end Verif.Text
