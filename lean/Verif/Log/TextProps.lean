import Verif.Log.Text
/-
C63: the text helpers of the logger. The specification describes a text as a sequence of
tokens; the theorems say what the helpers do with the text of any sequence of tokens, and
that every text (or every text which is processed without reading outside of it) is the text
of a sequence of tokens.
-/
namespace Verif.Log

/-! ### Specification -/

/-- What can stand in an escaped text: a character for itself, or `\c`. -/
inductive EscTok
  | raw (c : Char)
  | esc (c : Char)
  deriving DecidableEq, Repr

/-- The text of a token. -/
def EscTok.text : EscTok → List Char
  | .raw c => [c]
  | .esc c => ['\\', c]

/-- A backslash does not stand for itself. -/
def EscTok.Valid : EscTok → Prop
  | .raw c => c ≠ '\\'
  | .esc _ => True

/-- The control characters which have an escape letter. -/
def escapeTable : List (Char × Char) :=
  [('a', '\x07'), ('b', '\x08'), ('t', '\x09'), ('n', '\x0a'), ('v', '\x0b'), ('f', '\x0c'),
    ('r', '\x0d')]

/-- The meaning of a token: `\c` is the control character of the table, otherwise `c`. -/
def EscTok.meaning : EscTok → Char
  | .raw c => c
  | .esc c => (escapeTable.lookup c).getD c

/-- Pieces put together with a separator. -/
def join (d : Char) : List (List Char) → List Char
  | [] => []
  | [p] => p
  | p :: ps => p ++ d :: join d ps

/-- What can stand in a pattern. -/
inductive PatTok
  /-- a character for itself -/
  | lit (c : Char)
  /-- `%c` -/
  | conv (c : Char)
  /-- `%c` where `c` is a time -/
  | time (c : Char)
  /-- `%c{format}` where `c` is a time -/
  | timeFmt (c : Char) (format : List Char)
  deriving DecidableEq, Repr

/-- The text of a token of a pattern. -/
def PatTok.text : PatTok → List Char
  | .lit c => [c]
  | .conv c => ['%', c]
  | .time c => ['%', c]
  | .timeFmt c f => '%' :: c :: '{' :: f ++ ['}']

/-- The text of a pattern. -/
def patText (ts : List PatTok) : List Char := ts.flatMap PatTok.text

/-- The letters of the times. -/
def timeLetters : List Char := ['d', 'S', 'E', 'M']

/-- Well formed sequences of tokens. With `strict`, a time without a format is not the last
thing of the pattern. -/
def PatValid (strict : Bool) : List PatTok → Prop
  | [] => True
  | .lit c :: r => c ≠ '%' ∧ PatValid strict r
  | .conv c :: r => c ∉ timeLetters ∧ PatValid strict r
  | .time c :: r => c ∈ timeLetters ∧ (patText r).head? ≠ some '{' ∧
      (strict = true → patText r ≠ []) ∧ PatValid strict r
  | .timeFmt c f :: r => c ∈ timeLetters ∧ '}' ∉ f ∧ PatValid strict r

/-- What a token of a pattern writes. -/
def PatTok.pieces : PatTok → List Piece
  | .lit c => [.chr c]
  | .conv 'p' => [.sender]
  | .conv 'k' => [.kind]
  | .conv 'm' => [.msg]
  | .conv 't' => [.chr '\t']
  | .conv 'n' => [.chr '\n']
  | .conv '%' => [.chr '%']
  | .conv c => [.chr '%', .chr c]
  | .time c => [.time c []]
  | .timeFmt c f => [.time c f]

/-! ### Escaped texts -/

theorem unescapeChar_eq (c : Char) : unescapeChar c = (EscTok.esc c).meaning := by
  unfold unescapeChar EscTok.meaning escapeTable
  by_cases h1 : c = '\''
  · subst h1; decide
  by_cases h2 : c = '"'
  · subst h2; decide
  by_cases h3 : c = '?'
  · subst h3; decide
  by_cases h4 : c = '\\'
  · subst h4; decide
  by_cases h5 : c = 'a'
  · subst h5; decide
  by_cases h6 : c = 'b'
  · subst h6; decide
  by_cases h7 : c = 'f'
  · subst h7; decide
  by_cases h8 : c = 'n'
  · subst h8; decide
  by_cases h9 : c = 'r'
  · subst h9; decide
  by_cases h10 : c = 't'
  · subst h10; decide
  by_cases h11 : c = 'v'
  · subst h11; decide
  simp [List.lookup, beq_false_of_ne, *]

theorem getElem?_mid {α : Type} (pre : List α) (c : α) (r : List α) :
    (pre ++ c :: r)[pre.length]? = some c := by
  simp

theorem unescapeLoop_end (s : List Char) (acc : List Char) :
    unescapeLoop s s.length acc = some acc := by
  unfold unescapeLoop
  simp

theorem unescapeLoop_raw (pre r acc : List Char) (c : Char) (hc : c ≠ '\\') :
    unescapeLoop (pre ++ c :: r) pre.length acc =
      unescapeLoop ((pre ++ [c]) ++ r) (pre ++ [c]).length (acc ++ [c]) := by
  conv => lhs; unfold unescapeLoop
  rw [if_neg (by simp)]
  split
  · rename_i h; simp at h
  · rename_i c' h
    have e : c' = c := by simpa using h.symm
    subst e
    rw [if_neg hc]
    simp

theorem unescapeLoop_esc (pre r acc : List Char) (c : Char) :
    unescapeLoop (pre ++ '\\' :: c :: r) pre.length acc =
      unescapeLoop ((pre ++ ['\\', c]) ++ r) (pre ++ ['\\', c]).length
        (acc ++ [unescapeChar c]) := by
  conv => lhs; unfold unescapeLoop
  rw [if_neg (by simp)]
  split
  · rename_i h; simp at h
  · rename_i c' h
    have e : c' = '\\' := by simpa using h.symm
    subst e
    rw [if_pos rfl, if_neg (by simp)]
    have h2 : (pre ++ '\\' :: c :: r)[pre.length + 1]? = some c := by
      rw [List.getElem?_append_right (by omega)]
      simp
    rw [h2]
    simp

theorem unescapeLoop_last (pre acc : List Char) :
    unescapeLoop (pre ++ ['\\']) pre.length acc = some acc := by
  unfold unescapeLoop
  rw [if_neg (by simp)]
  split
  · rename_i h; simp at h
  · rename_i c' h
    have e : c' = '\\' := by simpa using h.symm
    subst e
    rw [if_pos rfl, if_pos (by simp)]
    have := unescapeLoop_end (pre ++ ['\\']) acc
    simpa using this

theorem unescapeLoop_toks (ts : List EscTok) (hv : ∀ t ∈ ts, t.Valid) (tail : List Char)
    (ht : tail = [] ∨ tail = ['\\']) : ∀ pre acc : List Char,
    unescapeLoop (pre ++ (ts.flatMap EscTok.text ++ tail)) pre.length acc =
      some (acc ++ ts.map EscTok.meaning) := by
  induction ts with
  | nil =>
    intro pre acc
    rcases ht with rfl | rfl
    · simpa using unescapeLoop_end pre acc
    · simpa using unescapeLoop_last pre acc
  | cons t ts ih =>
    intro pre acc
    have ih' := ih (fun t h => hv t (List.mem_cons_of_mem _ h))
    cases t with
    | raw c =>
      have hc : c ≠ '\\' := hv (.raw c) List.mem_cons_self
      have := unescapeLoop_raw pre (ts.flatMap EscTok.text ++ tail) acc c hc
      simp only [List.flatMap_cons, EscTok.text, List.cons_append, List.nil_append,
        List.map_cons] at this ⊢
      rw [this, ih']
      simp [EscTok.meaning]
    | esc c =>
      have := unescapeLoop_esc pre (ts.flatMap EscTok.text ++ tail) acc c
      simp only [List.flatMap_cons, EscTok.text, List.cons_append, List.nil_append,
        List.map_cons] at this ⊢
      rw [this, ih', unescapeChar_eq]
      simp

/-- C63: `unescape` reads the escaped text it is given: each token gives its meaning. A lone
backslash at the end is dropped. -/
theorem C63_unescape (ts : List EscTok) (hv : ∀ t ∈ ts, t.Valid) :
    unescape (ts.flatMap EscTok.text) = some (ts.map EscTok.meaning) ∧
    unescape (ts.flatMap EscTok.text ++ ['\\']) = some (ts.map EscTok.meaning) := by
  constructor
  · simpa [unescape] using unescapeLoop_toks ts hv [] (.inl rfl) [] []
  · simpa [unescape] using unescapeLoop_toks ts hv ['\\'] (.inr rfl) [] []

/-- Every text is an escaped text, possibly with a lone backslash at the end. -/
theorem escaped_parse : ∀ (n : Nat) (s : List Char), s.length ≤ n →
    ∃ ts : List EscTok, (∀ t ∈ ts, t.Valid) ∧
      (s = ts.flatMap EscTok.text ∨ s = ts.flatMap EscTok.text ++ ['\\']) := by
  intro n
  induction n with
  | zero =>
    intro s hs
    cases s with
    | nil => exact ⟨[], by simp, .inl rfl⟩
    | cons c r => simp at hs
  | succ n ih =>
    intro s hs
    match s with
    | [] => exact ⟨[], by simp, .inl rfl⟩
    | c :: r =>
      by_cases hc : c = '\\'
      · subst hc
        match r with
        | [] => exact ⟨[], by simp, .inr rfl⟩
        | d :: r =>
          obtain ⟨ts, hv, h⟩ := ih r (by simp at hs; omega)
          refine ⟨.esc d :: ts, ?_, ?_⟩
          · intro t ht
            rcases List.mem_cons.mp ht with rfl | ht
            · trivial
            · exact hv t ht
          · rcases h with rfl | rfl
            · exact .inl (by simp [EscTok.text])
            · exact .inr (by simp [EscTok.text])
      · obtain ⟨ts, hv, h⟩ := ih r (by simp at hs; omega)
        refine ⟨.raw c :: ts, ?_, ?_⟩
        · intro t ht
          rcases List.mem_cons.mp ht with rfl | ht
          · exact hc
          · exact hv t ht
        · rcases h with rfl | rfl
          · exact .inl (by simp [EscTok.text])
          · exact .inr (by simp [EscTok.text])

/-- C63: `unescape` terminates without reading outside of its input for every string, and the
result is given by the tokens of the string. -/
theorem C63_unescape_total (s : List Char) :
    ∃ ts : List EscTok, (∀ t ∈ ts, t.Valid) ∧
      (s = ts.flatMap EscTok.text ∨ s = ts.flatMap EscTok.text ++ ['\\']) ∧
      unescape s = some (ts.map EscTok.meaning) := by
  obtain ⟨ts, hv, h⟩ := escaped_parse s.length s (Nat.le_refl _)
  refine ⟨ts, hv, h, ?_⟩
  rcases h with rfl | rfl
  · exact (C63_unescape ts hv).1
  · exact (C63_unescape ts hv).2

/-- A text is escaped by doubling its backslashes: `unescape` gives it back. -/
theorem C63_unescape_escape (s : List Char) :
    unescape (s.flatMap (fun c => if c = '\\' then ['\\', '\\'] else [c])) = some s := by
  have h := (C63_unescape (s.map (fun c => if c = '\\' then EscTok.esc c else .raw c)) (by
    intro t ht
    obtain ⟨c, _, rfl⟩ := List.mem_map.mp ht
    split
    · trivial
    · assumption)).1
  have e1 : (s.map (fun c => if c = '\\' then EscTok.esc c else .raw c)).flatMap EscTok.text =
      s.flatMap (fun c => if c = '\\' then ['\\', '\\'] else [c]) := by
    rw [List.flatMap_map]
    congr 1
    funext c
    split
    · rename_i hc; subst hc; rfl
    · rfl
  have e2 : (s.map (fun c => if c = '\\' then EscTok.esc c else .raw c)).map EscTok.meaning =
      s := by
    rw [List.map_map]
    conv => rhs; rw [← List.map_id s]
    congr 1
    funext c
    simp only [Function.comp]
    split
    · rename_i hc; subst hc; decide
    · rfl
  rw [e1, e2] at h
  exact h

example : unescape "a\\tb\\\\c\\qd\\".toList = some "a\tb\\cqd".toList := by decide +kernel
example : "a\\tb\\\\c\\qd".toList =
    [EscTok.raw 'a', .esc 't', .raw 'b', .esc '\\', .raw 'c', .esc 'q', .raw 'd'].flatMap
      EscTok.text := by decide

/-! ### Trimming -/

theorem ltrim_eq (s : List Char) : ltrim s = s.dropWhile isSpace := by
  unfold ltrim
  induction s with
  | nil => rfl
  | cons c r ih =>
    rw [List.findIdx_cons, List.dropWhile_cons]
    cases hc : isSpace c
    · simp
    · simpa [hc] using ih

theorem rtrim_eq (s : List Char) : rtrim s = (s.reverse.dropWhile isSpace).reverse := by
  have h := ltrim_eq s.reverse
  unfold ltrim at h
  unfold rtrim
  rw [← h, List.drop_reverse, List.reverse_reverse]

theorem dropWhile_split (s : List Char) : ∃ a, s = a ++ s.dropWhile isSpace ∧
    (∀ c ∈ a, isSpace c = true) ∧ ∀ c, (s.dropWhile isSpace).head? = some c → isSpace c = false := by
  refine ⟨s.takeWhile isSpace, (List.takeWhile_append_dropWhile).symm, ?_, ?_⟩
  · intro c hc
    induction s with
    | nil => simp at hc
    | cons x r ih =>
      rw [List.takeWhile_cons] at hc
      split at hc
      · rcases List.mem_cons.mp hc with rfl | hc
        · assumption
        · exact ih hc
      · simp at hc
  · intro c hc
    induction s with
    | nil => simp at hc
    | cons x r ih =>
      rw [List.dropWhile_cons] at hc
      split at hc
      · exact ih hc
      · rename_i hx; simp at hc; subst hc; simpa using hx

/-- C63: white space is a space, a tabulator, a line feed, a vertical tabulator, a form feed or a
carriage return (`std::isspace` in the "C" locale), and nothing else. -/
theorem C63_space (c : Char) : isSpace c = true ↔ c.toNat = 32 ∨ (9 ≤ c.toNat ∧ c.toNat ≤ 13) := by
  have key : ∀ d : Char, c = d ↔ c.toNat = d.toNat := fun d =>
    ⟨fun h => h ▸ rfl, fun h => Char.ext (UInt32.toNat_inj.1 h)⟩
  simp only [isSpace, Bool.or_eq_true, beq_iff_eq, key]
  show ((((c.toNat = 32 ∨ c.toNat = 9) ∨ c.toNat = 10) ∨ c.toNat = 13) ∨ c.toNat = 11) ∨ c.toNat = 12 ↔ _
  omega

/-- C63: `trim` removes the white space at both ends and nothing else. -/
theorem C63_trim (s : List Char) : ∃ a b, s = a ++ trim s ++ b ∧
    (∀ c ∈ a, isSpace c = true) ∧ (∀ c ∈ b, isSpace c = true) ∧
    (∀ c, (trim s).head? = some c → isSpace c = false) ∧
    ∀ c, (trim s).getLast? = some c → isSpace c = false := by
  obtain ⟨a, ha, hsp, hhd⟩ := dropWhile_split s
  obtain ⟨b, hb, hsp', hhd'⟩ := dropWhile_split (ltrim s).reverse
  have e : trim s = ((ltrim s).reverse.dropWhile isSpace).reverse := rtrim_eq (ltrim s)
  have hl : ltrim s = trim s ++ b.reverse := by
    have := congrArg List.reverse hb
    rw [List.reverse_reverse, List.reverse_append, ← e] at this
    exact this
  refine ⟨a, b.reverse, ?_, hsp, ?_, ?_, ?_⟩
  · rw [List.append_assoc, ← hl, ltrim_eq]; exact ha
  · intro c hc
    exact hsp' c (List.mem_reverse.mp hc)
  · intro c hc
    rw [← ltrim_eq, hl] at hhd
    apply hhd
    rw [List.head?_append, hc]; rfl
  · intro c hc
    apply hhd'
    rw [e, List.getLast?_reverse] at hc
    exact hc

/-- A text without white space at its ends is not changed. -/
theorem trim_id (s : List Char) (h1 : ∀ c, s.head? = some c → isSpace c = false)
    (h2 : ∀ c, s.getLast? = some c → isSpace c = false) : trim s = s := by
  have e1 : ltrim s = s := by
    rw [ltrim_eq]
    cases s with
    | nil => rfl
    | cons c r => rw [List.dropWhile_cons, h1 c rfl]; simp
  unfold trim
  rw [e1, rtrim_eq]
  have : s.reverse.dropWhile isSpace = s.reverse := by
    cases hr : s.reverse with
    | nil => rfl
    | cons c r =>
      have : s.getLast? = some c := by
        rw [← List.reverse_reverse s, List.getLast?_reverse, hr]; rfl
      rw [List.dropWhile_cons, h2 c this]; simp
  rw [this, List.reverse_reverse]

/-- Trimming twice is trimming once. -/
theorem C63_trim_idem (s : List Char) : trim (trim s) = trim s := by
  obtain ⟨_, _, _, _, _, h1, h2⟩ := C63_trim s
  exact trim_id _ h1 h2

example : trim " \t a b \n".toList = "a b".toList := by decide

theorem trim_filter (s : List Char) (p : Char → Bool) (hp : ∀ c, isSpace c = true → p c = false) :
    (trim s).filter p = s.filter p := by
  obtain ⟨a, b, e, ha, hb, _⟩ := C63_trim s
  have ha' : a.filter p = [] := by
    rw [List.filter_eq_nil_iff]; intro c hc; simp [hp c (ha c hc)]
  have hb' : b.filter p = [] := by
    rw [List.filter_eq_nil_iff]; intro c hc; simp [hp c (hb c hc)]
  conv => rhs; rw [e]
  rw [List.filter_append, List.filter_append, ha', hb']
  simp

/-! ### Splitting -/

theorem findIdx_sep (p : List Char) (d : Char) (r : List Char) (hp : d ∉ p) :
    (p ++ d :: r).findIdx (· == d) = p.length := by
  induction p with
  | nil => simp [List.findIdx_cons]
  | cons c p ih =>
    have h1 : c ≠ d := fun e => hp (by simp [e])
    have h2 : d ∉ p := fun e => hp (List.mem_cons_of_mem _ e)
    simp [List.findIdx_cons, beq_false_of_ne h1, ih h2]

theorem findIdx_none (p : List Char) (d : Char) (hp : d ∉ p) :
    p.findIdx (· == d) = p.length := by
  rw [List.findIdx_eq_length]
  intro c hc
  exact beq_false_of_ne (fun e => hp (e ▸ hc))

theorem find_sep (pre p r : List Char) (d : Char) (hp : d ∉ p) :
    find (pre ++ (p ++ d :: r)) d pre.length = some (pre.length + p.length) := by
  unfold find
  rw [List.drop_left, findIdx_sep p d r hp]
  simp

theorem find_none (pre p : List Char) (d : Char) (hp : d ∉ p) :
    find (pre ++ p) d pre.length = none := by
  unfold find
  rw [List.drop_left, findIdx_none p d hp]
  simp

theorem splitLoop_sep (pre p r : List Char) (d : Char) (acc : List (List Char)) (hp : d ∉ p) :
    splitLoop (pre ++ (p ++ d :: r)) d pre.length acc =
      splitLoop ((pre ++ (p ++ [d])) ++ r) d (pre ++ (p ++ [d])).length (acc ++ [trim p]) := by
  conv => lhs; unfold splitLoop
  split
  · rename_i e h
    rw [find_sep pre p r d hp] at h
    simp only [Option.some.injEq] at h
    subst h
    have : substr (pre ++ (p ++ d :: r)) pre.length (pre.length + p.length - pre.length) =
        some p := by
      unfold substr
      rw [if_pos (by simp), List.drop_left, Nat.add_sub_cancel_left, List.take_left]
    rw [this]
    simp [Nat.add_assoc]
  · rename_i h
    rw [find_sep pre p r d hp] at h
    simp at h

theorem splitLoop_last (pre p : List Char) (d : Char) (acc : List (List Char)) (hp : d ∉ p) :
    splitLoop (pre ++ p) d pre.length acc =
      some (if trim p = [] then acc else acc ++ [trim p]) := by
  unfold splitLoop
  split
  · rename_i e h
    rw [find_none pre p d hp] at h
    simp at h
  · have : substr (pre ++ p) pre.length ((pre ++ p).length - pre.length) = some p := by
      unfold substr
      rw [if_pos (by simp), List.drop_left, List.length_append, Nat.add_sub_cancel_left,
        List.take_length]
    rw [this]
    simp only [Option.bind_eq_bind, Option.bind_some, List.isEmpty_iff]
    split <;> rfl

theorem splitLoop_join (ps : List (List Char)) (last : List Char) (d : Char)
    (hp : ∀ p ∈ ps, d ∉ p) (hl : d ∉ last) : ∀ pre acc,
    splitLoop (pre ++ join d (ps ++ [last])) d pre.length acc =
      some (acc ++ ps.map trim ++ if trim last = [] then [] else [trim last]) := by
  induction ps with
  | nil =>
    intro pre acc
    simp only [List.nil_append, join]
    rw [splitLoop_last pre last d acc hl]
    split <;> simp
  | cons p ps ih =>
    intro pre acc
    have e : join d (p :: ps ++ [last]) = p ++ d :: join d (ps ++ [last]) := by
      cases ps with
      | nil => rfl
      | cons q ps => rfl
    rw [e, splitLoop_sep _ _ _ _ _ (hp p List.mem_cons_self),
      ih (fun q hq => hp q (List.mem_cons_of_mem _ hq))]
    simp

/-- C63: `split` cuts a text at each separator. Each piece is trimmed; the last one is dropped
if nothing is left of it. `substr` never throws. -/
theorem C63_split (ps : List (List Char)) (last : List Char) (d : Char)
    (hp : ∀ p ∈ ps, d ∉ p) (hl : d ∉ last) :
    split (join d (ps ++ [last])) d =
      some (ps.map trim ++ if trim last = [] then [] else [trim last]) := by
  simpa [split] using splitLoop_join ps last d hp hl [] []

theorem join_parse (d : Char) (s : List Char) :
    ∃ ps last, (∀ p ∈ ps, d ∉ p) ∧ d ∉ last ∧ s = join d (ps ++ [last]) := by
  induction s with
  | nil => exact ⟨[], [], by simp, by simp, rfl⟩
  | cons c r ih =>
    obtain ⟨ps, last, hp, hl, e⟩ := ih
    by_cases hc : c = d
    · refine ⟨[] :: ps, last, ?_, hl, ?_⟩
      · intro p hm
        rcases List.mem_cons.mp hm with rfl | hm
        · simp
        · exact hp p hm
      · subst hc
        cases ps <;> simp [join, e]
    · cases ps with
      | nil =>
        refine ⟨[], c :: last, by simp, ?_, ?_⟩
        · intro hm
          rcases List.mem_cons.mp hm with rfl | hm
          · exact hc rfl
          · exact hl hm
        · simp [join, e]
      | cons q ps =>
        refine ⟨(c :: q) :: ps, last, ?_, hl, ?_⟩
        · intro p hm
          rcases List.mem_cons.mp hm with rfl | hm
          · intro hm
            rcases List.mem_cons.mp hm with rfl | hm
            · exact hc rfl
            · exact hp q List.mem_cons_self hm
          · exact hp p (List.mem_cons_of_mem _ hm)
        · rw [e]
          cases ps <;> rfl

theorem filter_join (d : Char) (f : Char → Bool) (hf : f d = false) : ∀ ps : List (List Char),
    (join d ps).filter f = ps.flatMap (List.filter f)
  | [] => rfl
  | [p] => by simp [join]
  | p :: q :: ps => by
    have := filter_join d f hf (q :: ps)
    simp [join, hf, this]

/-- C63: for every text `split` succeeds, and it loses no character other than the separator
and white space. -/
theorem C63_split_total (s : List Char) (d : Char) : ∃ r, split s d = some r ∧
    r.flatMap (List.filter (fun c => c != d && !isSpace c)) =
      s.filter (fun c => c != d && !isSpace c) ∧
    (∀ p ∈ r, d ∉ p ∧ trim p = p) ∧
    s.count d ≤ r.length ∧ r.length ≤ s.count d + 1 := by
  obtain ⟨ps, last, hp, hl, rfl⟩ := join_parse d s
  have hcount : (join d (ps ++ [last])).count d = ps.length := by
    induction ps with
    | nil =>
      simp only [List.nil_append, join, List.length_nil]
      rw [List.count_eq_zero]
      assumption
    | cons p ps ih =>
      have e : join d (p :: ps ++ [last]) = p ++ d :: join d (ps ++ [last]) := by
        cases ps <;> rfl
      rw [e, List.count_append, List.count_cons_self,
        ih (fun q hq => hp q (List.mem_cons_of_mem _ hq)),
        List.count_eq_zero.mpr (hp p List.mem_cons_self)]
      simp
  refine ⟨_, C63_split ps last d hp hl, ?_, ?_, ?_, ?_⟩
  · rw [filter_join d _ (by simp)]
    rw [List.flatMap_append, List.flatMap_append, List.flatMap_map]
    congr 1
    · congr 1
      funext p
      exact trim_filter p _ (by intro c hc; simp [hc])
    · have := trim_filter last (fun c => c != d && !isSpace c) (by intro c hc; simp [hc])
      split
      · rename_i h
        rw [h] at this
        simp [← this]
      · simp [this]
  · intro p hm
    have hsub : ∀ q : List Char, d ∉ q → d ∉ trim q := by
      intro q hq hm
      obtain ⟨a, b, e, _⟩ := C63_trim q
      apply hq
      rw [e]
      simp [hm]
    rcases List.mem_append.mp hm with hm | hm
    · obtain ⟨q, hq, rfl⟩ := List.mem_map.mp hm
      exact ⟨hsub q (hp q hq), C63_trim_idem q⟩
    · split at hm
      · simp at hm
      · simp at hm; subst hm
        exact ⟨hsub last hl, C63_trim_idem last⟩
  · rw [hcount]; simp
  · rw [hcount]; split <;> simp

example : split " Error, Warning ,,Debug".toList ',' =
    some ["Error".toList, "Warning".toList, [], "Debug".toList] := by decide +kernel
example : split "Error,".toList ',' = some ["Error".toList] := by decide +kernel

/-! ### Patterns -/

theorem deref_mid (strict : Bool) (pre : List Char) (c : Char) (r : List Char) :
    deref strict (pre ++ c :: r) pre.length = some c := by
  unfold deref
  rw [if_pos (by simp)]
  simp

theorem deref_mid1 (strict : Bool) (pre : List Char) (a c : Char) (r : List Char) :
    deref strict (pre ++ a :: c :: r) (pre.length + 1) = some c := by
  have := deref_mid strict (pre ++ [a]) c r
  simpa using this

theorem deref_end (strict : Bool) (s : List Char) :
    deref strict s s.length = if strict then none else some '\x00' := by
  unfold deref
  cases strict <;> simp

theorem deref_out (strict : Bool) (s : List Char) (i : Nat) (h : s.length < i) :
    deref strict s i = none := by
  unfold deref
  rw [if_neg (by omega), if_neg (by omega)]

theorem braceLoop_step (strict : Bool) (s : List Char) (it : Nat) (f : List Char) :
    braceLoop strict s it f =
      match deref strict s it with
      | none => none
      | some c => if c = '}' then some (it, f) else braceLoop strict s (it + 1) (f ++ [c]) := by
  rw [braceLoop]
  split <;> rename_i h <;> simp [h]

theorem braceLoop_close (strict : Bool) (f : List Char) (hf : '}' ∉ f) (r : List Char) :
    ∀ pre acc, braceLoop strict (pre ++ (f ++ '}' :: r)) pre.length acc =
      some (pre.length + f.length, acc ++ f) := by
  induction f with
  | nil =>
    intro pre acc
    rw [braceLoop_step, List.nil_append, deref_mid]
    simp
  | cons c f ih =>
    intro pre acc
    have hc : c ≠ '}' := fun e => hf (by simp [e])
    rw [braceLoop_step, List.cons_append, deref_mid]
    simp only
    rw [if_neg hc]
    have := ih (fun h => hf (List.mem_cons_of_mem _ h)) (pre ++ [c]) (acc ++ [c])
    simp only [List.length_append, List.length_singleton, List.append_assoc,
      List.singleton_append] at this
    rw [this]
    simp only [List.length_cons, Option.some.injEq, Prod.mk.injEq, and_true]
    omega

theorem braceLoop_open (strict : Bool) (f : List Char) (hf : '}' ∉ f) :
    ∀ pre acc, braceLoop strict (pre ++ f) pre.length acc = none := by
  induction f with
  | nil =>
    intro pre acc
    rw [braceLoop_step, List.append_nil, deref_end]
    cases strict
    · simp only [Bool.false_eq_true, if_false]
      rw [if_neg (by decide), braceLoop_step, deref_out _ _ _ (by omega)]
    · rfl
  | cons c f ih =>
    intro pre acc
    have hc : c ≠ '}' := fun e => hf (by simp [e])
    rw [braceLoop_step, deref_mid]
    simp only
    rw [if_neg hc]
    have := ih (fun h => hf (List.mem_cons_of_mem _ h)) (pre ++ [c]) (acc ++ [c])
    simpa using this

theorem appendLoop_step (strict : Bool) (s : List Char) (it : Nat) (out : List Piece) :
    appendLoop strict s it out =
      if it = s.length then some out else
      match deref strict s it with
      | none => none
      | some c => if c = '%' then
          match conversion strict s (it + 1) with
          | none => none
          | some r => appendLoop strict s (r.1 + 1) (out ++ r.2)
        else appendLoop strict s (it + 1) (out ++ [.chr c]) := by
  rw [appendLoop]
  split
  · rfl
  · split <;> rename_i h <;> simp only [h]
    split
    · split <;> rename_i h2 <;> simp [h2]
    · rfl

theorem appendLoop_out (strict : Bool) (s : List Char) (it : Nat) (out : List Piece)
    (h : s.length < it) : appendLoop strict s it out = none := by
  rw [appendLoop_step, if_neg (by omega), deref_out _ _ _ h]

/-- Reading the character after `%` when it is not a time. -/
theorem conversion_conv (strict : Bool) (s : List Char) (it : Nat) (c : Char)
    (h : deref strict s it = some c) (hc : c ∉ timeLetters) :
    conversion strict s it = some (it, (PatTok.conv c).pieces) := by
  have h4 : ¬ (c = 'd' ∨ c = 'S' ∨ c = 'E' ∨ c = 'M') := by
    simpa [timeLetters] using hc
  unfold conversion
  rw [h]
  simp only [Option.bind_eq_bind, Option.bind_some]
  by_cases h1 : c = 'p'
  · subst h1; rfl
  rw [if_neg h1]
  by_cases h2 : c = 'k'
  · subst h2; rfl
  rw [if_neg h2]
  by_cases h3 : c = 'm'
  · subst h3; rfl
  rw [if_neg h3, if_neg h4]
  by_cases h5 : c = 't'
  · subst h5; rfl
  rw [if_neg h5]
  by_cases h6 : c = 'n'
  · subst h6; rfl
  rw [if_neg h6]
  by_cases h7 : c = '%'
  · subst h7; rfl
  rw [if_neg h7]
  unfold PatTok.pieces
  split <;> simp_all

theorem conversion_time (strict : Bool) (s : List Char) (it : Nat) (c : Char)
    (h : deref strict s it = some c) (hc : c ∈ timeLetters) :
    conversion strict s it =
      (getFormatting strict s it).map (fun r => (r.1, [.time c r.2])) := by
  unfold conversion
  rw [h]
  simp only [Option.bind_eq_bind, Option.bind_some]
  have h4 : c = 'd' ∨ c = 'S' ∨ c = 'E' ∨ c = 'M' := by
    simpa [timeLetters] using hc
  rw [if_neg (by rcases h4 with rfl | rfl | rfl | rfl <;> decide),
    if_neg (by rcases h4 with rfl | rfl | rfl | rfl <;> decide),
    if_neg (by rcases h4 with rfl | rfl | rfl | rfl <;> decide), if_pos h4]

theorem appendLoop_lit (strict : Bool) (pre r : List Char) (c : Char) (out : List Piece)
    (hc : c ≠ '%') : appendLoop strict (pre ++ c :: r) pre.length out =
      appendLoop strict ((pre ++ [c]) ++ r) (pre ++ [c]).length (out ++ [.chr c]) := by
  rw [appendLoop_step, if_neg (by simp), deref_mid]
  simp only
  rw [if_neg hc]
  simp

theorem appendLoop_conv (strict : Bool) (pre r : List Char) (c : Char) (out : List Piece)
    (hc : c ∉ timeLetters) : appendLoop strict (pre ++ '%' :: c :: r) pre.length out =
      appendLoop strict ((pre ++ ['%', c]) ++ r) (pre ++ ['%', c]).length
        (out ++ (PatTok.conv c).pieces) := by
  rw [appendLoop_step, if_neg (by simp), deref_mid]
  simp only [if_true]
  rw [conversion_conv strict _ _ c (deref_mid1 strict pre '%' c r) hc]
  simp

theorem appendLoop_timeFmt (strict : Bool) (pre f r : List Char) (c : Char) (out : List Piece)
    (hc : c ∈ timeLetters) (hf : '}' ∉ f) :
    appendLoop strict (pre ++ '%' :: c :: '{' :: (f ++ '}' :: r)) pre.length out =
      appendLoop strict ((pre ++ ('%' :: c :: '{' :: f ++ ['}'])) ++ r)
        (pre ++ ('%' :: c :: '{' :: f ++ ['}'])).length (out ++ [.time c f]) := by
  rw [appendLoop_step, if_neg (by simp), deref_mid]
  simp only [if_true]
  rw [conversion_time strict _ _ c (deref_mid1 strict pre '%' c _) hc]
  have h1 : deref strict (pre ++ '%' :: c :: '{' :: (f ++ '}' :: r)) (pre.length + 1 + 1) =
      some '{' := by
    have := deref_mid strict (pre ++ ['%', c]) '{' (f ++ '}' :: r)
    simpa using this
  have h2 : braceLoop strict (pre ++ '%' :: c :: '{' :: (f ++ '}' :: r)) (pre.length + 1 + 2) [] =
      some (pre.length + 3 + f.length, f) := by
    have := braceLoop_close strict f hf r (pre ++ ['%', c, '{']) []
    simpa using this
  unfold getFormatting
  rw [h1]
  simp only [Option.bind_eq_bind, Option.bind_some, if_true]
  rw [h2]
  simp only [Option.map_some, List.cons_append, List.append_assoc, List.nil_append,
    List.length_append, List.length_cons, List.length_nil]
  congr 1
  omega

theorem appendLoop_time (strict : Bool) (pre r : List Char) (c : Char) (out : List Piece)
    (hc : c ∈ timeLetters) (hr : r.head? ≠ some '{') (hs : strict = true → r ≠ []) :
    appendLoop strict (pre ++ '%' :: c :: r) pre.length out =
      appendLoop strict ((pre ++ ['%', c]) ++ r) (pre ++ ['%', c]).length
        (out ++ [.time c []]) := by
  rw [appendLoop_step, if_neg (by simp), deref_mid]
  simp only [if_true]
  rw [conversion_time strict _ _ c (deref_mid1 strict pre '%' c r) hc]
  have h1 : ∃ x, deref strict (pre ++ '%' :: c :: r) (pre.length + 1 + 1) = some x ∧ x ≠ '{' := by
    cases r with
    | nil =>
      cases strict
      · have := deref_end false (pre ++ ['%', c])
        exact ⟨'\x00', by simpa using this, by decide⟩
      · exact absurd rfl (hs rfl)
    | cons x r =>
      have := deref_mid strict (pre ++ ['%', c]) x r
      exact ⟨x, by simpa using this, fun e => hr (by rw [e]; rfl)⟩
  obtain ⟨x, hx, hne⟩ := h1
  unfold getFormatting
  rw [hx]
  simp only [Option.bind_eq_bind, Option.bind_some]
  rw [if_neg hne]
  simp

theorem appendLoop_toks (strict : Bool) (ts : List PatTok) (hv : PatValid strict ts) :
    ∀ pre out, appendLoop strict (pre ++ patText ts) pre.length out =
      some (out ++ ts.flatMap PatTok.pieces) := by
  induction ts with
  | nil =>
    intro pre out
    rw [appendLoop_step, if_pos (by simp [patText])]
    simp
  | cons t ts ih =>
    intro pre out
    cases t with
    | lit c =>
      obtain ⟨hc, hv⟩ := hv
      have := appendLoop_lit strict pre (patText ts) c out hc
      rw [ih hv] at this
      simpa [patText, PatTok.text, PatTok.pieces] using this
    | conv c =>
      obtain ⟨hc, hv⟩ := hv
      have := appendLoop_conv strict pre (patText ts) c out hc
      rw [ih hv] at this
      simpa [patText, PatTok.text] using this
    | time c =>
      obtain ⟨hc, hr, hs, hv⟩ := hv
      have := appendLoop_time strict pre (patText ts) c out hc hr hs
      rw [ih hv] at this
      simpa [patText, PatTok.text, PatTok.pieces] using this
    | timeFmt c f =>
      obtain ⟨hc, hf, hv⟩ := hv
      have := appendLoop_timeFmt strict pre f (patText ts) c out hc hf
      rw [ih hv] at this
      simpa [patText, PatTok.text, PatTok.pieces] using this

theorem split_brace (r : List Char) (h : '}' ∈ r) : ∃ f r', r = f ++ '}' :: r' ∧ '}' ∉ f := by
  induction r with
  | nil => simp at h
  | cons c r ih =>
    by_cases hc : c = '}'
    · exact ⟨[], r, by simp [hc], by simp⟩
    · obtain ⟨f, r', e, hf⟩ := ih (by
        rcases List.mem_cons.mp h with h | h
        · exact absurd h.symm hc
        · exact h)
      refine ⟨c :: f, r', by simp [e], ?_⟩
      intro hm
      rcases List.mem_cons.mp hm with h | h
      · exact hc h.symm
      · exact hf h

theorem appendLoop_parse (strict : Bool) : ∀ (n : Nat) (s pre : List Char) (out o : List Piece),
    s.length ≤ n → appendLoop strict (pre ++ s) pre.length out = some o →
    ∃ ts, PatValid strict ts ∧ s = patText ts := by
  intro n
  induction n with
  | zero =>
    intro s pre out o hs _
    cases s with
    | nil => exact ⟨[], trivial, rfl⟩
    | cons c r => simp at hs
  | succ n ih =>
    intro s pre out o hs h
    match s with
    | [] => exact ⟨[], trivial, rfl⟩
    | c :: r =>
      by_cases hc : c = '%'
      · subst hc
        match r with
        | [] =>
          exfalso
          rw [appendLoop_step, if_neg (by simp), deref_mid] at h
          simp only [if_true] at h
          have he : deref strict (pre ++ ['%']) (pre.length + 1) =
              if strict then none else some '\x00' := by
            have := deref_end strict (pre ++ ['%'])
            simpa using this
          cases strict
          · rw [conversion_conv false _ _ '\x00' (by simpa using he) (by decide)] at h
            simp only at h
            rw [appendLoop_out _ _ _ _ (by simp)] at h
            simp at h
          · unfold conversion at h
            rw [he] at h
            simp at h
        | d :: r =>
          by_cases hd : d ∈ timeLetters
          · by_cases hb : r.head? = some '{'
            · match r with
              | [] => simp at hb
              | x :: r =>
                have hx : x = '{' := by simpa using hb
                subst hx
                by_cases hcl : '}' ∈ r
                · obtain ⟨f, r', rfl, hf⟩ := split_brace r hcl
                  rw [appendLoop_timeFmt strict pre f r' d out hd hf] at h
                  obtain ⟨ts, hv, e⟩ := ih r' _ _ _ (by
                    simp at hs; omega) h
                  exact ⟨.timeFmt d f :: ts, ⟨hd, hf, hv⟩, by
                    simp [patText, PatTok.text, e]⟩
                · exfalso
                  rw [appendLoop_step, if_neg (by simp), deref_mid] at h
                  simp only [if_true] at h
                  rw [conversion_time strict _ _ d (deref_mid1 strict pre '%' d _) hd] at h
                  have h1 : deref strict (pre ++ '%' :: d :: '{' :: r) (pre.length + 1 + 1) =
                      some '{' := by
                    have := deref_mid strict (pre ++ ['%', d]) '{' r
                    simpa using this
                  have h2 : braceLoop strict (pre ++ '%' :: d :: '{' :: r)
                      (pre.length + 1 + 2) [] = none := by
                    have := braceLoop_open strict r hcl (pre ++ ['%', d, '{']) []
                    simpa using this
                  unfold getFormatting at h
                  rw [h1] at h
                  simp only [Option.bind_eq_bind, Option.bind_some, if_true] at h
                  rw [h2] at h
                  simp at h
            · by_cases hse : strict = true → r ≠ []
              · rw [appendLoop_time strict pre r d out hd hb hse] at h
                obtain ⟨ts, hv, e⟩ := ih r _ _ _ (by simp at hs; omega) h
                exact ⟨.time d :: ts, ⟨hd, e ▸ hb, e ▸ hse, hv⟩, by
                  simp [patText, PatTok.text, e]⟩
              · exfalso
                have hst : strict = true := by
                  cases strict
                  · exact absurd (fun h => by simp at h) hse
                  · rfl
                have hr : r = [] := by
                  cases r with
                  | nil => rfl
                  | cons x r => exact absurd (fun _ => by simp) hse
                subst hst hr
                rw [appendLoop_step, if_neg (by simp), deref_mid] at h
                simp only [if_true] at h
                rw [conversion_time true _ _ d (deref_mid1 true pre '%' d _) hd] at h
                have he : deref true (pre ++ ['%', d]) (pre.length + 1 + 1) = none := by
                  have := deref_end true (pre ++ ['%', d])
                  simpa using this
                unfold getFormatting at h
                rw [he] at h
                simp at h
          · rw [appendLoop_conv strict pre r d out hd] at h
            obtain ⟨ts, hv, e⟩ := ih r _ _ _ (by simp at hs; omega) h
            exact ⟨.conv d :: ts, ⟨hd, hv⟩, by simp [patText, PatTok.text, e]⟩
      · rw [appendLoop_lit strict pre r c out hc] at h
        obtain ⟨ts, hv, e⟩ := ih r _ _ _ (by simp at hs; omega) h
        exact ⟨.lit c :: ts, ⟨hc, hv⟩, by simp [patText, PatTok.text, e]⟩

/-- C63: a pattern made of well formed tokens is written token by token. -/
theorem C63_pattern (strict : Bool) (ts : List PatTok) (hv : PatValid strict ts) :
    patternAppend strict (patText ts) = some (ts.flatMap PatTok.pieces) := by
  simpa [patternAppend] using appendLoop_toks strict ts hv [] []

/-- C63 (partial: the full statement asks for every string): the patterns which are written
without reading outside of the pattern are exactly those made of well formed tokens: no lone
`%` at the end, every `{` after a time is closed and, by the letter of the standard, no time
without a format at the end. -/
theorem C63_pattern_partial (strict : Bool) (s : List Char) :
    (patternAppend strict s).isSome ↔ ∃ ts, PatValid strict ts ∧ s = patText ts := by
  constructor
  · intro h
    obtain ⟨o, ho⟩ := Option.isSome_iff_exists.mp h
    exact appendLoop_parse strict s.length s [] [] o (Nat.le_refl _) (by simpa [patternAppend] using ho)
  · rintro ⟨ts, hv, rfl⟩
    rw [C63_pattern strict ts hv]; rfl

/-- C63 does not hold for patterns: with a lone `%` at the end, or with a format which is not
closed, `Append` reads outside of the pattern, whatever comes before. -/
theorem C63_pattern_fails (strict : Bool) (ts : List PatTok) (hv : PatValid strict ts) :
    patternAppend strict (patText ts ++ ['%']) = none ∧
    ∀ c ∈ timeLetters, ∀ f, '}' ∉ f → patternAppend strict (patText ts ++ '%' :: c :: '{' :: f) = none := by
  have key : ∀ (t : List Char), t.head? ≠ some '{' → t ≠ [] →
      (∀ (pre : List Char) (out : List Piece), appendLoop strict (pre ++ t) pre.length out = none) →
      ∀ (ts : List PatTok), PatValid strict ts → ∀ (pre : List Char) (out : List Piece),
        appendLoop strict (pre ++ (patText ts ++ t)) pre.length out = none := by
    intro t hth htn h0 ts
    induction ts with
    | nil => intro _ pre out; simpa [patText] using h0 pre out
    | cons x ts ih =>
      intro hv pre out
      cases x with
      | lit c =>
        obtain ⟨hc, hv⟩ := hv
        have := appendLoop_lit strict pre (patText ts ++ t) c out hc
        rw [ih hv] at this
        simpa [patText, PatTok.text] using this
      | conv c =>
        obtain ⟨hc, hv⟩ := hv
        have := appendLoop_conv strict pre (patText ts ++ t) c out hc
        rw [ih hv] at this
        simpa [patText, PatTok.text] using this
      | time c =>
        obtain ⟨hc, hr, hs, hv⟩ := hv
        have hh : (patText ts ++ t).head? ≠ some '{' := by
          rw [List.head?_append]
          cases hp : (patText ts).head? with
          | none => simpa using hth
          | some y => rw [hp] at hr; simpa using hr
        have := appendLoop_time strict pre (patText ts ++ t) c out hc hh (by simp [htn])
        rw [ih hv] at this
        simpa [patText, PatTok.text] using this
      | timeFmt c f =>
        obtain ⟨hc, hf, hv⟩ := hv
        have := appendLoop_timeFmt strict pre f (patText ts ++ t) c out hc hf
        rw [ih hv] at this
        simpa [patText, PatTok.text] using this
  constructor
  · have := key ['%'] (by decide) (by decide) (by
      intro pre out
      cases h : appendLoop strict (pre ++ ['%']) pre.length out with
      | none => rfl
      | some o =>
        exfalso
        rw [appendLoop_step, if_neg (by simp), deref_mid] at h
        simp only [if_true] at h
        have he : deref strict (pre ++ ['%']) (pre.length + 1) =
            if strict then none else some '\x00' := by
          have := deref_end strict (pre ++ ['%'])
          simpa using this
        cases strict
        · rw [conversion_conv false _ _ '\x00' (by simpa using he) (by decide)] at h
          simp only at h
          rw [appendLoop_out _ _ _ _ (by simp)] at h
          simp at h
        · unfold conversion at h
          rw [he] at h
          simp at h) ts hv [] []
    simpa [patternAppend] using this
  · intro d hd r hcl
    have := key ('%' :: d :: '{' :: r) (by simp) (by simp) (by
      intro pre out
      rw [appendLoop_step, if_neg (by simp), deref_mid]
      simp only [if_true]
      rw [conversion_time strict _ _ d (deref_mid1 strict pre '%' d _) hd]
      have h1 : deref strict (pre ++ '%' :: d :: '{' :: r) (pre.length + 1 + 1) =
          some '{' := by
        have := deref_mid strict (pre ++ ['%', d]) '{' r
        simpa using this
      have h2 : braceLoop strict (pre ++ '%' :: d :: '{' :: r)
          (pre.length + 1 + 2) [] = none := by
        have := braceLoop_open strict r hcl (pre ++ ['%', d, '{']) []
        simpa using this
      unfold getFormatting
      rw [h1]
      simp only [Option.bind_eq_bind, Option.bind_some, if_true]
      rw [h2]
      simp) ts hv [] []
    simpa [patternAppend] using this

/-- C63: a configured pattern is written with the meaning of its escapes. -/
theorem C63_configured (ts : List EscTok) (hv : ∀ t ∈ ts, t.Valid) :
    computePattern (some (ts.flatMap EscTok.text)) = some (ts.map EscTok.meaning) :=
  (C63_unescape ts hv).1

/-- The default pattern is written without a fault, in both readings. -/
theorem C63_default (strict : Bool) : ∃ s, computePattern none = some s ∧
    patternAppend strict s = some
      [.time 'd' "%F %T".toList, .chr '\t', .time 'S' [], .chr '\t', .sender, .chr '\t', .kind,
        .chr '\t', .msg, .chr '\n'] := by
  refine ⟨_, rfl, ?_⟩
  have : defaultPattern = patText [.timeFmt 'd' "%F %T".toList, .conv 't', .time 'S', .conv 't',
      .conv 'p', .conv 't', .conv 'k', .conv 't', .conv 'm', .conv 'n'] := by decide +kernel
  rw [this, C63_pattern]
  · rfl
  · simp [PatValid, timeLetters, patText, PatTok.text]

example : PatValid false [.lit '[', .time 'S', .lit ']', .conv 'x', .timeFmt 'd' ['%', 'T'],
    .time 'E'] := by
  simp [PatValid, timeLetters, patText, PatTok.text]
example : patText [.lit '[', .time 'S', .lit ']', .conv 'x', .timeFmt 'd' ['%', 'T'],
    .time 'E'] = "[%S]%x%d{%T}%E".toList := by decide
example : patternAppend false "100%".toList = none := by decide +kernel
example : patternAppend false "%d{%T".toList = none := by decide +kernel
example : (patternAppend false "%S".toList).isSome ∧ patternAppend true "%S".toList = none := by
  decide +kernel

end Verif.Log
