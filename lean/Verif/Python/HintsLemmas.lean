import Verif.Python.HintsSpec

/-! Lemmas for `HintsProps.lean`: reading a file line by line. -/
namespace Verif.Python.Hints
open Verif.Path (Str)
open Verif.Python.Class (Ifc Lawful Above)

/-! ### Characters -/

theorem safe_ne_quote {c : Char} (h : safe c = true) : c ≠ '"' := by
  intro e; subst e; revert h; decide

theorem lex_safe (u r : Str) (h : ∀ c ∈ u, safe c = true) :
    lex none (u ++ r) = (lex none r).map (u.map .ch ++ ·) := by
  induction u with
  | nil =>
    show lex none r = _
    cases lex none r <;> rfl
  | cons c u ih =>
    have hc := h c (by simp)
    have hq := safe_ne_quote hc
    rw [List.cons_append, lex.eq_2, if_pos hc, ih (fun x hx => h x (by simp [hx]))]
    · cases lex none r <;> rfl
    · intro r' e _
      exact hq e

theorem lex_text (s r acc : Str) (hc : ∀ c ∈ s, c ≠ '\\' ∧ c ≠ '\r' ∧ c ≠ '\x00')
    (hl : s.getLast? ≠ some '"') (hq : ¬ ∃ u v, s = u ++ "\"\"\"".toList ++ v) :
    lex (some acc) (s ++ ('"' :: '"' :: '"' :: r)) =
      (lex none r).map (.str (acc.reverse ++ s) :: ·) := by
  induction s generalizing acc with
  | nil => rw [List.nil_append, lex.eq_4, List.append_nil]
  | cons c s ih =>
    have h1 := hc c (by simp)
    have hrec := ih (c :: acc) (fun x hx => hc x (by simp [hx]))
      (by
        intro e
        apply hl
        cases s with
        | nil => cases e
        | cons d t => rw [List.getLast?_cons_cons]; exact e)
      (by
        rintro ⟨u, v, e⟩
        exact hq ⟨c :: u, v, by rw [e]; rfl⟩)
    rw [List.cons_append, lex.eq_5]
    · rw [if_neg (by simp [h1.1, h1.2.1, h1.2.2]), hrec]
      simp
    · intro r' e0 e
      subst e0
      cases s with
      | nil => exact hl rfl
      | cons d t =>
        simp only [List.cons_append, List.cons.injEq] at e
        obtain ⟨rfl, e⟩ := e
        cases t with
        | nil => exact hl rfl
        | cons d' t =>
          simp only [List.cons_append, List.cons.injEq] at e
          obtain ⟨rfl, e⟩ := e
          exact hq ⟨[], t, rfl⟩

theorem lex_doc (s r : Str) (h : PyText s) :
    lex none ("\"\"\"".toList ++ s ++ "\"\"\"".toList ++ r) = (lex none r).map (.str s :: ·) := by
  have : "\"\"\"".toList ++ s ++ "\"\"\"".toList ++ r =
      '"' :: '"' :: '"' :: (s ++ ('"' :: '"' :: '"' :: r)) := by simp
  rw [this, lex.eq_1, lex_text s r [] h.1 h.2.1 h.2.2]
  rfl

/-! ### Lines -/

/-- The characters of a line without text. -/
def code : Item → Str
  | .imp m => "import ".toList ++ m
  | .cls n bs => "class ".toList ++ n ++ "(".toList ++ bs.flatMap (· ++ ", ".toList) ++ "):".toList
  | .ann n t => n ++ ": ".toList ++ t
  | .op n => "def ".toList ++ n ++ "(self, ): ...".toList
  | .pass => "pass".toList
  | .doc _ => []

/-- The tokens of what a line says. -/
def toks : Item → List Tok
  | .doc s => [.str s]
  | i => (code i).map .ch

/-- The characters of a token. -/
def Tok.code : Tok → Str
  | .ch c => [c]
  | .str s => "\"\"\"".toList ++ s ++ "\"\"\"".toList

/-- The tokens of a line. -/
def rowToks : Option (Nat × Item) → List Tok
  | none => []
  | some (n, i) => List.replicate n (.ch ' ') ++ toks i

/-- The text of lines. -/
def render (L : List (Option (Nat × Item))) : Str :=
  L.flatMap fun x => (rowToks x).flatMap Tok.code ++ ['\n']

/-- A character of a type. -/
def dotted (c : Char) : Bool := word c || c == '.'

/-- What can be read back. -/
def Good : Item → Prop
  | .imp m => ident m = true
  | .cls n bs => ident n = true ∧ ∀ b ∈ bs, b ≠ [] ∧ ∀ c ∈ b, dotted c = true
  | .ann n t => ident n = true ∧ ∀ c ∈ t, dotted c = true
  | .op n => ident n = true
  | .pass => True
  | .doc s => PyText s

theorem word_safe {c : Char} (h : word c = true) : safe c = true ∧ c ≠ '\n' ∧ c ≠ ' ' := by
  refine ⟨by simp [safe, h], ?_, ?_⟩ <;> (intro e; subst e; revert h; decide)

theorem dotted_safe {c : Char} (h : dotted c = true) : safe c = true ∧ c ≠ '\n' ∧ c ≠ ' ' := by
  simp only [dotted, Bool.or_eq_true, beq_iff_eq] at h
  rcases h with h | rfl
  · exact word_safe h
  · decide

theorem ident_words {s : Str} (h : ident s = true) : ∀ c ∈ s, word c = true := by
  simp only [ident, Bool.and_eq_true, List.all_eq_true] at h
  exact h.1.1

theorem ident_ne {s : Str} (h : ident s = true) : s ≠ [] := by
  intro e; subst e; simp [ident] at h

/-- A token that can be read, within a line. -/
def Tok.Fine : Tok → Prop
  | .ch c => safe c = true ∧ c ≠ '\n'
  | .str s => PyText s

theorem fine_append {a b : List Tok} (ha : ∀ t ∈ a, t.Fine) (hb : ∀ t ∈ b, t.Fine) :
    ∀ t ∈ a ++ b, t.Fine := by
  intro t ht
  rcases List.mem_append.1 ht with h | h
  · exact ha t h
  · exact hb t h

/-- A character that can be read, within a line. -/
def plain (c : Char) : Bool := safe c && c != '\n'

theorem word_plain {c : Char} (h : word c = true) : plain c = true := by
  have := word_safe h
  simp [plain, this.1, this.2.1]

theorem dotted_plain {c : Char} (h : dotted c = true) : plain c = true := by
  have := dotted_safe h
  simp [plain, this.1, this.2.1]

theorem all_app {a b : Str} (ha : a.all plain = true) (hb : b.all plain = true) :
    (a ++ b).all plain = true := by rw [List.all_append, ha, hb]; rfl

theorem code_plain {i : Item} (h : Good i) : (code i).all plain = true := by
  have w : ∀ n : Str, ident n = true → n.all plain = true := fun n hn =>
    List.all_eq_true.2 fun c hc => word_plain (ident_words hn c hc)
  have l1 : "import ".toList.all plain = true := by decide +kernel
  have l2 : "class ".toList.all plain = true := by decide +kernel
  have l3 : "(".toList.all plain = true := by decide +kernel
  have l4 : "):".toList.all plain = true := by decide +kernel
  have l5 : ": ".toList.all plain = true := by decide +kernel
  have l6 : "def ".toList.all plain = true := by decide +kernel
  have l7 : "(self, ): ...".toList.all plain = true := by decide +kernel
  have l8 : "pass".toList.all plain = true := by decide +kernel
  have l9 : ", ".toList.all plain = true := by decide +kernel
  cases i with
  | imp m =>
    exact all_app l1 (w m h)
  | cls n bs =>
    have hb : (bs.flatMap (· ++ ", ".toList)).all plain = true := by
      rw [List.all_eq_true]
      intro c hc
      obtain ⟨b, hb, hc⟩ := List.mem_flatMap.1 hc
      rcases List.mem_append.1 hc with hc | hc
      · exact dotted_plain ((h.2 b hb).2 c hc)
      · exact List.all_eq_true.1 l9 c hc
    exact all_app (all_app (all_app (all_app l2 (w n h.1)) l3) hb) l4
  | ann n t =>
    exact all_app (all_app (w n h.1) l5) (List.all_eq_true.2 fun c hc => dotted_plain (h.2 c hc))
  | op n =>
    exact all_app (all_app l6 (w n h)) l7
  | pass => exact l8
  | doc s => rfl

theorem toks_code {i : Item} (hd : ∀ s, i ≠ .doc s) : toks i = (code i).map .ch := by
  cases i with
  | doc s => exact absurd rfl (hd s)
  | _ => rfl

theorem toks_fine {i : Item} (h : Good i) : ∀ t ∈ toks i, t.Fine := by
  by_cases hd : ∃ s, i = .doc s
  · obtain ⟨s, rfl⟩ := hd
    intro t ht
    simp only [toks, List.mem_singleton] at ht
    subst ht
    exact h
  · rw [toks_code (fun s e => hd ⟨s, e⟩)]
    intro t ht
    obtain ⟨c, hc, rfl⟩ := List.mem_map.1 ht
    have := List.all_eq_true.1 (code_plain h) c hc
    simpa [plain, Tok.Fine] using this

theorem lex_toks (l : List Tok) (r : Str) (h : ∀ t ∈ l, t.Fine) :
    lex none (l.flatMap Tok.code ++ r) = (lex none r).map (l ++ ·) := by
  induction l with
  | nil =>
    show lex none r = _
    cases lex none r <;> rfl
  | cons t l ih =>
    have ht := h t (by simp)
    rw [List.flatMap_cons, List.append_assoc]
    have hrec := ih (fun x hx => h x (by simp [hx]))
    cases t with
    | ch c =>
      rw [show Tok.code (.ch c) = [c] from rfl, lex_safe [c] _ (by simpa using ht.1), hrec]
      cases lex none r <;> rfl
    | str s =>
      rw [show Tok.code (.str s) = "\"\"\"".toList ++ s ++ "\"\"\"".toList from rfl, lex_doc s _ ht, hrec]
      cases lex none r <;> rfl

/-- A line that can be read back. -/
def GoodRow (x : Option (Nat × Item)) : Prop := ∀ n i, x = some (n, i) → Good i

theorem rowToks_fine {x : Option (Nat × Item)} (h : GoodRow x) : ∀ t ∈ rowToks x, t.Fine := by
  cases x with
  | none => intro t ht; cases ht
  | some p =>
    refine fine_append ?_ (toks_fine (h p.1 p.2 rfl))
    intro t ht
    rw [(List.mem_replicate.1 ht).2]
    exact ⟨by decide, by decide⟩

theorem lex_render (L : List (Option (Nat × Item))) (h : ∀ x ∈ L, GoodRow x) :
    lex none (render L) = some (L.flatMap fun x => rowToks x ++ [.ch '\n']) := by
  induction L with
  | nil => rfl
  | cons x L ih =>
    have : render (x :: L) = (rowToks x).flatMap Tok.code ++ (['\n'] ++ render L) := by
      simp [render]
    rw [this, lex_toks _ _ (rowToks_fine (h x (by simp))), lex_safe _ _ (by decide),
      ih (fun y hy => h y (by simp [hy]))]
    simp

theorem rows_nl (r : List Tok) : rows (.ch '\n' :: r) = [] :: rows r := rfl

theorem rows_other {t : Tok} (h : t ≠ .ch '\n') (r l : List Tok) (ls : List (List Tok))
    (e : rows r = l :: ls) : rows (t :: r) = (t :: l) :: ls := by
  rw [rows.eq_3 _ _ h, e]

theorem rows_line (l : List Tok) (h : ∀ t ∈ l, t.Fine) (r : List Tok) :
    rows (l ++ .ch '\n' :: r) = l :: rows r := by
  induction l with
  | nil => rfl
  | cons t l ih =>
    have : t ≠ .ch '\n' := by
      intro e
      have := h t (by simp)
      rw [e] at this
      exact this.2 rfl
    exact rows_other this _ _ _ (ih (fun x hx => h x (by simp [hx])))

theorem rows_render (L : List (Option (Nat × Item))) (h : ∀ x ∈ L, GoodRow x) :
    rows (L.flatMap fun x => rowToks x ++ [.ch '\n']) = L.map rowToks ++ [[]] := by
  induction L with
  | nil => rfl
  | cons x L ih =>
    rw [List.flatMap_cons, List.append_assoc]
    have e := rows_line _ (rowToks_fine (h x (by simp))) (L.flatMap fun x => rowToks x ++ [.ch '\n'])
    rw [ih (fun y hy => h y (by simp [hy]))] at e
    exact e

/-! ### Reading a line -/

theorem takeWhile_words (u r : Str) (h : ∀ c ∈ u, word c = true) (hr : ∀ c, r.head? = some c → word c = false) :
    (u ++ r).takeWhile word = u ∧ (u ++ r).dropWhile word = r := by
  induction u with
  | nil =>
    cases r with
    | nil => exact ⟨rfl, rfl⟩
    | cons c r =>
      have := hr c rfl
      simp [this]
  | cons c u ih =>
    have := ih (fun x hx => h x (by simp [hx]))
    simp [h c (by simp), this.1, this.2]

theorem args_one (b r acc : Str) (h : ∀ c ∈ b, dotted c = true) :
    args acc (b ++ (',' :: ' ' :: r)) = (args [] r).map ((acc.reverse ++ b) :: ·) := by
  induction b generalizing acc with
  | nil => rw [List.nil_append, args.eq_2, List.append_nil]
  | cons c b ih =>
    have hc := h c (by simp)
    rw [List.cons_append, args.eq_3]
    · rw [if_pos (show (word c || c == '.') = true from hc), ih _ (fun x hx => h x (by simp [hx]))]
      simp
    · intro e e'
      revert hc
      rw [e]
      decide
    · intro r' e
      intro e'
      revert hc
      rw [e]
      decide

theorem args_all (bs : List Str) (h : ∀ b ∈ bs, b ≠ [] ∧ ∀ c ∈ b, dotted c = true) :
    args [] (bs.flatMap (· ++ ", ".toList) ++ "):".toList) = some bs := by
  induction bs with
  | nil => rfl
  | cons b bs ih =>
    have : (b :: bs).flatMap (· ++ ", ".toList) ++ "):".toList =
        b ++ (',' :: ' ' :: (bs.flatMap (· ++ ", ".toList) ++ "):".toList)) := by simp
    rw [this, args_one _ _ _ (h b (by simp)).2, ih (fun x hx => h x (by simp [hx]))]
    rfl

theorem ident_not_keyword {s : Str} (h : ident s = true) {k : String} (hk : k ∈ keywords) :
    s ≠ k.toList := by
  intro e
  simp only [ident, Bool.and_eq_true, Bool.not_eq_true', List.any_eq_false] at h
  exact h.2 k hk (by simp [e])

theorem parse_code {i : Item} (h : Good i) (hd : ∀ s, i ≠ .doc s) : parse (code i) = some i := by
  cases i with
  | imp m =>
    have e := takeWhile_words "import".toList (' ' :: m) (by decide) (by
      intro c e; cases e; decide)
    have : code (.imp m) = "import".toList ++ ' ' :: m := by
      show "import ".toList ++ m = _
      rw [show "import ".toList = "import".toList ++ [' '] by decide +kernel, List.append_assoc]
      rfl
    have hm : ident m = true := h
    rw [this]
    unfold parse
    rw [e.1, e.2]
    rw [if_neg (by decide +kernel), if_pos rfl]
    show (if ident m = true then some (Item.imp m) else none) = _
    rw [if_pos hm]
  | cls n bs =>
    have e := takeWhile_words "class".toList
      (' ' :: (n ++ '(' :: (bs.flatMap (· ++ ", ".toList) ++ "):".toList))) (by decide) (by
      intro c e; cases e; decide)
    have e2 := takeWhile_words n ('(' :: (bs.flatMap (· ++ ", ".toList) ++ "):".toList))
      (ident_words h.1) (by intro c e; cases e; decide)
    have : code (.cls n bs) = "class".toList ++
        ' ' :: (n ++ '(' :: (bs.flatMap (· ++ ", ".toList) ++ "):".toList)) := by
      show "class ".toList ++ n ++ "(".toList ++ bs.flatMap (· ++ ", ".toList) ++ "):".toList = _
      rw [show "class ".toList = "class".toList ++ [' '] by decide +kernel,
        show "(".toList = ['('] by decide +kernel]
      simp only [List.append_assoc, List.cons_append, List.nil_append]
    rw [this]
    unfold parse
    rw [e.1, e.2]
    rw [if_neg (by decide +kernel), if_neg (by decide +kernel), if_pos rfl]
    show (if ident ((n ++ '(' :: (bs.flatMap (· ++ ", ".toList) ++ "):".toList)).takeWhile word) = true then
        match (n ++ '(' :: (bs.flatMap (· ++ ", ".toList) ++ "):".toList)).dropWhile word with
        | '(' :: l => (args [] l).map (Item.cls ((n ++ '(' :: (bs.flatMap (· ++ ", ".toList) ++
            "):".toList)).takeWhile word))
        | _ => none
      else none) = _
    rw [e2.1, e2.2, if_pos h.1]
    show (args [] (bs.flatMap (· ++ ", ".toList) ++ "):".toList)).map (Item.cls n) = _
    rw [args_all bs h.2]
    rfl
  | ann n t =>
    have e := takeWhile_words n (':' :: ' ' :: t) (ident_words h.1) (by
      intro c e; cases e; decide)
    have : code (.ann n t) = n ++ ':' :: ' ' :: t := by
      show n ++ ": ".toList ++ t = _
      rw [show ": ".toList = [':', ' '] by decide +kernel, List.append_assoc]
      rfl
    rw [this]
    unfold parse
    rw [e.1, e.2]
    rw [if_neg (ident_not_keyword h.1 (by decide)), if_neg (ident_not_keyword h.1 (by decide)),
      if_neg (ident_not_keyword h.1 (by decide)), if_neg (ident_not_keyword h.1 (by decide)), if_pos h.1]
    rfl
  | op n =>
    have e := takeWhile_words "def".toList (' ' :: (n ++ "(self, ): ...".toList)) (by decide) (by
      intro c e; cases e; decide)
    have e2 := takeWhile_words n "(self, ): ...".toList (ident_words h) (by
      intro c e
      have : ("(self, ): ...".toList).head? = some '(' := by decide
      rw [this] at e
      cases e; decide)
    have : code (.op n) = "def".toList ++ ' ' :: (n ++ "(self, ): ...".toList) := by
      show "def ".toList ++ n ++ "(self, ): ...".toList = _
      rw [show "def ".toList = "def".toList ++ [' '] by decide +kernel]
      simp only [List.append_assoc, List.cons_append, List.nil_append]
    have hn : ident n = true := h
    rw [this]
    unfold parse
    rw [e.1, e.2]
    rw [if_neg (by decide +kernel), if_neg (by decide +kernel), if_neg (by decide +kernel), if_pos rfl]
    show (if ident ((n ++ "(self, ): ...".toList).takeWhile word) = true ∧
        (n ++ "(self, ): ...".toList).dropWhile word = "(self, ): ...".toList
      then some (Item.op ((n ++ "(self, ): ...".toList).takeWhile word)) else none) = _
    rw [e2.1, e2.2, if_pos ⟨hn, rfl⟩]
  | pass => decide
  | doc s => exact absurd rfl (hd s)

theorem mapM_char (s : Str) : (s.map Tok.ch).mapM Tok.char? = some s := by
  induction s with
  | nil => rfl
  | cons c s ih => rw [List.map_cons, List.mapM_cons, ih]; rfl

theorem code_head {i : Item} (h : Good i) (hd : ∀ s, i ≠ .doc s) :
    ∃ c r, code i = c :: r ∧ c ≠ ' ' := by
  cases i with
  | imp m => exact ⟨'i', _, rfl, by decide⟩
  | cls n bs => exact ⟨'c', _, rfl, by decide⟩
  | ann n t =>
    have hn := ident_ne h.1
    have hw := ident_words h.1
    cases n with
    | nil => exact absurd rfl hn
    | cons c n => exact ⟨c, _, rfl, (word_safe (hw c (by simp))).2.2⟩
  | op n => exact ⟨'d', _, rfl, by decide⟩
  | pass => exact ⟨'p', _, rfl, by decide⟩
  | doc s => exact absurd rfl (hd s)

theorem spaces (n : Nat) (t : Tok) (r : List Tok) (h : t ≠ .ch ' ') :
    (List.replicate n (Tok.ch ' ') ++ t :: r).takeWhile (· == Tok.ch ' ') = List.replicate n (Tok.ch ' ') ∧
    (List.replicate n (Tok.ch ' ') ++ t :: r).dropWhile (· == Tok.ch ' ') = t :: r := by
  induction n with
  | zero => simp [h]
  | succ n ih =>
    rw [List.replicate_succ, List.cons_append]
    simp only [List.takeWhile_cons, List.dropWhile_cons, beq_self_eq_true, if_true]
    exact ⟨by rw [ih.1], ih.2⟩

theorem line_row (x : Option (Nat × Item)) (h : GoodRow x) : line (rowToks x) = some x := by
  cases x with
  | none => rfl
  | some p =>
    obtain ⟨n, i⟩ := p
    have hg := h n i rfl
    by_cases hd : ∃ s, i = .doc s
    · obtain ⟨s, rfl⟩ := hd
      have := spaces n (.str s) [] (fun e => nomatch e)
      unfold line
      rw [show rowToks (some (n, .doc s)) = List.replicate n (.ch ' ') ++ [.str s] from rfl,
        this.1, this.2, List.length_replicate]
    · have hd' : ∀ s, i ≠ .doc s := fun s e => hd ⟨s, e⟩
      obtain ⟨c, r, hc, hs⟩ := code_head hg hd'
      have e : rowToks (some (n, i)) = List.replicate n (.ch ' ') ++ .ch c :: r.map .ch := by
        show _ ++ toks i = _
        rw [toks_code hd', hc]; rfl
      have hsp := spaces n (.ch c) (r.map .ch) (by simpa using hs)
      unfold line
      rw [e, hsp.1, hsp.2, List.length_replicate]
      have hm : (Tok.ch c :: r.map Tok.ch).mapM Tok.char? = some (code i) := by
        rw [hc]; exact mapM_char (c :: r)
      have hp := parse_code hg hd'
      cases r with
      | nil =>
        dsimp only
        simp only [List.map_nil] at hm ⊢
        rw [hm, Option.bind_some, hp]; rfl
      | cons d r =>
        dsimp only [List.map_cons]
        rw [hm, Option.bind_some, hp]
        rfl

theorem mapM_rows (L : List (Option (Nat × Item))) (h : ∀ x ∈ L, GoodRow x) :
    (L.map rowToks ++ [[]]).mapM line = some (L ++ [none]) := by
  induction L with
  | nil => rfl
  | cons x L ih =>
    rw [List.map_cons, List.cons_append, List.mapM_cons, line_row x (h x (by simp)),
      ih (fun y hy => h y (by simp [hy]))]
    rfl

/-! ### Blocks -/

mutual
/-- The lines of a statement. -/
def Stmt.lines (n : Nat) : Stmt → List (Nat × Item)
  | .imp m => [(n, .imp m)]
  | .cls a b body => (n, .cls a b) :: linesAll (n + 4) body
  | .ann a t => [(n, .ann a t)]
  | .op a => [(n, .op a)]
  | .pass => [(n, .pass)]
  | .doc s => [(n, .doc s)]
/-- The lines of statements. -/
def linesAll (n : Nat) : List Stmt → List (Nat × Item)
  | [] => []
  | s :: l => s.lines n ++ linesAll n l
end

mutual
/-- Every class has a body. -/
def Stmt.Full : Stmt → Prop
  | .cls _ _ body => body ≠ [] ∧ FullAll body
  | _ => True
/-- Every class has a body. -/
def FullAll : List Stmt → Prop
  | [] => True
  | s :: l => s.Full ∧ FullAll l
end

theorem lines_head (n : Nat) (s : Stmt) : ∃ i r, s.lines n = (n, i) :: r := by
  cases s <;> exact ⟨_, _, by rw [Stmt.lines]⟩

theorem linesAll_head (n : Nat) (l : List Stmt) (h : l ≠ []) : ∃ i r, linesAll n l = (n, i) :: r := by
  cases l with
  | nil => exact absurd rfl h
  | cons s l =>
    obtain ⟨i, r, e⟩ := lines_head n s
    exact ⟨i, r ++ linesAll n l, by rw [linesAll, e]; rfl⟩

theorem block_below (f n k : Nat) (i : Item) (l : List (Nat × Item)) (h : k < n) :
    block (f + 1) n ((k, i) :: l) = some ([], (k, i) :: l) := by
  cases i <;> first | (cases l <;> simp [block, h]) | simp [block, h]

theorem block_cls (f n k : Nat) (a : Str) (b : List Str) (j : Item) (l : List (Nat × Item)) (h : n < k) :
    block (f + 1) n ((n, .cls a b) :: (k, j) :: l) =
      (block f k ((k, j) :: l)).bind fun (body, r) =>
        (block f n r).map fun (ss, r') => (.cls a b body :: ss, r') := by
  have : ¬ k ≤ n := by omega
  simp [block, this]

theorem block_lines : ∀ (f n : Nat) (ss : List Stmt) (rest : List (Nat × Item)), FullAll ss →
    (linesAll n ss).length < f → (∀ k i, rest.head? = some (k, i) → k < n) →
    block f n (linesAll n ss ++ rest) = some (ss, rest)
  | 0, _, _, _, _, h, _ => absurd h (Nat.not_lt_zero _)
  | f + 1, n, [], rest, _, _, hr => by
    cases rest with
    | nil => rfl
    | cons p rest =>
      obtain ⟨k, i⟩ := p
      show block (f + 1) n ((k, i) :: rest) = _
      exact block_below f n k i rest (hr k i rfl)
  | f + 1, n, s :: ss, rest, hf, hlen, hr => by
    rw [FullAll] at hf
    rw [linesAll, List.length_append] at hlen
    have one : ∀ i, s.lines n = [(n, i)] → block f n (linesAll n ss ++ rest) = some (ss, rest) := by
      intro i e
      rw [e] at hlen
      exact block_lines f n ss rest hf.2 (by simp only [List.length_cons, List.length_nil] at hlen; omega) hr
    cases s with
    | cls a b body =>
      rw [Stmt.Full] at hf
      rw [Stmt.lines, List.length_cons] at hlen
      obtain ⟨i, r, e⟩ := linesAll_head (n + 4) body hf.1.1
      have hb := block_lines f (n + 4) body (linesAll n ss ++ rest) hf.1.2 (by omega) (by
        intro k j hk
        cases ss with
        | nil =>
          have := hr k j (by simpa [linesAll] using hk)
          omega
        | cons s' ss' =>
          obtain ⟨i', r', e'⟩ := linesAll_head n (s' :: ss') (by simp)
          rw [e'] at hk
          simp only [List.cons_append, List.head?_cons, Option.some.injEq, Prod.mk.injEq] at hk
          omega)
      have hs := block_lines f n ss rest hf.2 (by omega) hr
      rw [linesAll, Stmt.lines, List.append_assoc, List.cons_append]
      rw [e] at hb ⊢
      rw [List.cons_append] at hb ⊢
      rw [block_cls f n (n + 4) a b i _ (by omega), hb, Option.bind_some]
      dsimp only
      rw [hs]
      rfl
    | imp m =>
      have := one _ (by rw [Stmt.lines])
      rw [linesAll, Stmt.lines, List.append_assoc, List.cons_append, List.nil_append]
      simp [block, this]
    | ann a t =>
      have := one _ (by rw [Stmt.lines])
      rw [linesAll, Stmt.lines, List.append_assoc, List.cons_append, List.nil_append]
      simp [block, this]
    | op a =>
      have := one _ (by rw [Stmt.lines])
      rw [linesAll, Stmt.lines, List.append_assoc, List.cons_append, List.nil_append]
      simp [block, this]
    | pass =>
      have := one _ (by rw [Stmt.lines])
      rw [linesAll, Stmt.lines, List.append_assoc, List.cons_append, List.nil_append]
      simp [block, this]
    | doc s =>
      have := one _ (by rw [Stmt.lines])
      rw [linesAll, Stmt.lines, List.append_assoc, List.cons_append, List.nil_append]
      simp [block, this]

/-- A file whose lines, empty ones apart, are those of statements is read as these statements. -/
theorem statements_render (L : List (Option (Nat × Item))) (ss : List Stmt) (h : ∀ x ∈ L, GoodRow x)
    (hL : L.filterMap id = linesAll 0 ss) (hf : FullAll ss) : statements (render L) = some ss := by
  unfold statements
  rw [lex_render L h]
  dsimp only [Option.bind_eq_bind, Option.bind_some]
  rw [rows_render L h, mapM_rows L h, Option.bind_some]
  have e : (L ++ [none]).filterMap id = linesAll 0 ss := by
    rw [List.filterMap_append, hL]; simp
  rw [e]
  have := block_lines ((linesAll 0 ss).length + 1) 0 ss [] hf (Nat.lt_succ_self _) (by simp)
  rw [List.append_nil] at this
  rw [this]
  rfl

end Verif.Python.Hints
