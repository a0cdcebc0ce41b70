import Verif.Sim.Library

/-! Property C89: libraries are finalised exactly if they were initialised. -/
namespace Verif.Sim.Library

/-! ### Specification -/

/-- The libraries for which `LoadLibrary` returned, in that order. -/
def readies (t : List Ev) : List Nat :=
  t.filterMap fun | .ready i => some i | _ => none

/-- The libraries finalised, in that order. -/
def fins (t : List Ev) : List Nat :=
  t.filterMap fun | .fin i => some i | _ => none

/-- No `Finalise` loads a library, in the library and in those that it loads. -/
inductive Quiet : Lib → Prop
  | mk {id f i n loads r} (h : ∀ p ∈ loads, Quiet p.2) : Quiet (.mk id f i n loads r [])

/-- The libraries for which `LoadLibrary` returns: file and functions are there, `Initialise` returns
true, and each `LoadLibrary` it makes without catching returns. -/
inductive Returns : Lib → Prop
  | mk {id loads us} (h : ∀ p ∈ loads, p.1 = false → Returns p.2) :
    Returns (.mk id true true true loads (some true) us)

/-- The libraries loaded by the `Initialise` of a library. -/
def Lib.loads : Lib → List (Bool × Lib)
  | .mk _ _ _ _ ls _ _ => ls

/-- The library itself, or one within those that its `Initialise` loads. -/
inductive Within (m : Lib) : Lib → Prop
  | here : Within m m
  | sub {l : Lib} {p} (hp : p ∈ l.loads) (h : Within m p.2) : Within m l

/-- The calls of `LoadLibrary` made from outside, one after the other. -/
def loadings (ls : List Lib) : St := loadEach ⟨[], []⟩ ls

/-! ### Lemmas -/

/-- The libraries held are those that were made ready; nothing is finalised while loading. -/
structure Good (s : St) : Prop where
  held : s.libs.map Lib.id = readies s.trace
  none : fins s.trace = []
  quiet : ∀ l ∈ s.libs, l.unloads = []

theorem good_emit {s : St} (h : Good s) (e : Ev) (h1 : readies [e] = []) (h2 : fins [e] = []) :
    Good (s.emit e) := by
  refine ⟨?_, ?_, h.quiet⟩
  · show s.libs.map Lib.id = readies (s.trace ++ [e])
    rw [h.held]
    simp only [readies, List.filterMap_append] at h1 ⊢
    rw [h1, List.append_nil]
  · show fins (s.trace ++ [e]) = []
    have := h.none
    simp only [fins, List.filterMap_append] at h2 this ⊢
    rw [h2, this]; rfl

mutual
theorem load_good : ∀ (l : Lib) (s : St), Quiet l → Good s → Good (load s l).1
  | .mk id found hasInit hasFinal loads result unloads => by
    intro s hq hg
    have hu : unloads = [] := by cases hq; rfl
    have hl : ∀ p ∈ loads, Quiet p.2 := by cases hq; assumption
    rw [load]
    have href : ∀ {s : St}, Good s → Good (s.emit (.refused id)) :=
      fun h => good_emit h _ rfl rfl
    split
    · exact href hg
    · split
      · exact href hg
      · split
        · exact href hg
        · have h1 := loadAll_good loads (s.emit (.init id)) hl (good_emit hg _ rfl rfl)
          generalize loadAll (s.emit (.init id)) loads = r at h1 ⊢
          by_cases hr : r.2 = true
          · rw [ending.eq_def, if_pos hr]; exact href h1
          · rw [ending.eq_def, if_neg hr]
            match result with
            | some false => exact href h1
            | none => exact href h1
            | some true =>
              refine ⟨?_, ?_, ?_⟩
              · show (r.1.libs ++ [_]).map Lib.id = readies (r.1.trace ++ [.ready id])
                rw [List.map_append, h1.held]
                simp [readies, List.filterMap_append, Lib.id]
              · show fins (r.1.trace ++ [.ready id]) = []
                have := h1.none
                simp only [fins, List.filterMap_append] at this ⊢
                rw [this]; rfl
              · intro l hm
                rcases List.mem_append.1 (show l ∈ r.1.libs ++ [_] from hm) with hm | hm
                · exact h1.quiet l hm
                · rw [List.mem_singleton.1 hm]; exact hu
theorem loadAll_good : ∀ (ls : List (Bool × Lib)) (s : St), (∀ p ∈ ls, Quiet p.2) → Good s →
    Good (loadAll s ls).1
  | [] => by intro s _ hg; rw [loadAll]; exact hg
  | (caught, l) :: ls => by
    intro s hq hg
    have h1 := load_good l s (hq (caught, l) List.mem_cons_self) hg
    rw [loadAll]
    split
    · exact h1
    · exact loadAll_good ls _ (fun p hp => hq p (List.mem_cons_of_mem _ hp)) h1
end

mutual
theorem load_returns : ∀ (l : Lib) (s : St), (load s l).2 = false ↔ Returns l
  | .mk id found hasInit hasFinal loads result unloads => by
    intro s
    have ih := loadAll_returns loads (s.emit (.init id))
    rw [load]
    generalize loadAll (s.emit (.init id)) loads = r at ih ⊢
    constructor
    · intro h
      cases found
      · simp at h
      cases hasInit
      · simp at h
      cases hasFinal
      · simp at h
      simp only [Bool.not_true, Bool.false_eq_true, if_false] at h
      by_cases hr : r.2 = true
      · rw [ending.eq_def, if_pos hr] at h; cases h
      · rw [ending.eq_def, if_neg hr] at h
        match result, h with
        | some true, _ => exact Returns.mk (ih.1 (by simpa using hr))
        | some false, h => cases h
        | none, h => cases h
    · intro h
      cases h with
      | mk h =>
        have hr := ih.2 h
        simp [ending, hr]
theorem loadAll_returns : ∀ (ls : List (Bool × Lib)) (s : St),
    (loadAll s ls).2 = false ↔ ∀ p ∈ ls, p.1 = false → Returns p.2
  | [] => by intro s; rw [loadAll]; simp
  | (caught, l) :: ls => by
    intro s
    have h1 := load_returns l s
    rw [loadAll]
    by_cases h : ((load s l).2 && !caught) = true
    · rw [if_pos h]
      simp only [Bool.and_eq_true, Bool.not_eq_true'] at h
      constructor
      · intro hf; cases hf
      · intro ha
        have := h1.2 (ha (caught, l) List.mem_cons_self h.2)
        rw [h.1] at this; cases this
    · rw [if_neg h, loadAll_returns ls]
      constructor
      · intro ha p hp hc
        rcases List.mem_cons.1 hp with rfl | hp
        · apply h1.1
          simp only at hc
          subst hc
          simpa using h
        · exact ha p hp hc
      · intro ha p hp
        exact ha p (List.mem_cons_of_mem _ hp)
end

mutual
theorem load_added : ∀ (l : Lib) (s : St), ∃ added, (load s l).1.libs = s.libs ++ added ∧
    (∀ m ∈ added, Within m l) ∧
    ((load s l).2 = true → ∀ m ∈ added, ∃ p ∈ l.loads, Within m p.2) ∧
    ((load s l).2 = false → added.getLast? = some l)
  | .mk id found hasInit hasFinal loads result unloads => by
    intro s
    obtain ⟨ad, he, hw⟩ := loadAll_added loads (s.emit (.init id))
    rw [load]
    have hno : ∃ added, (s.emit (.refused id)).libs = s.libs ++ added ∧
        (∀ m ∈ added, Within m (.mk id found hasInit hasFinal loads result unloads)) ∧
        (true = true → ∀ m ∈ added, ∃ p ∈ loads, Within m p.2) ∧
        (true = false → added.getLast? =
          some (.mk id found hasInit hasFinal loads result unloads)) :=
      ⟨[], by simp [St.emit], by simp, by simp, by simp⟩
    have hsub : ∀ m ∈ ad, Within m (.mk id found hasInit hasFinal loads result unloads) := by
      intro m hm
      obtain ⟨p, hp, h⟩ := hw m hm
      exact Within.sub (l := .mk id found hasInit hasFinal loads result unloads) hp h
    split
    · exact hno
    · split
      · exact hno
      · split
        · exact hno
        · generalize loadAll (s.emit (.init id)) loads = r at he ⊢
          by_cases hr : r.2 = true
          · rw [ending.eq_def, if_pos hr]
            exact ⟨ad, he, hsub, fun _ => hw, by simp⟩
          · rw [ending.eq_def, if_neg hr]
            match result with
            | some false => exact ⟨ad, he, hsub, fun _ => hw, by simp⟩
            | none => exact ⟨ad, he, hsub, fun _ => hw, by simp⟩
            | some true =>
              refine ⟨ad ++ [.mk id found hasInit hasFinal loads (some true) unloads], ?_, ?_,
                by simp, by simp⟩
              · show r.1.libs ++ [_] = s.libs ++ _
                rw [he]
                exact List.append_assoc _ _ _
              · intro m hm
                rcases List.mem_append.1 hm with hm | hm
                · exact hsub m hm
                · rw [List.mem_singleton.1 hm]; exact Within.here
theorem loadAll_added : ∀ (ls : List (Bool × Lib)) (s : St), ∃ added,
    (loadAll s ls).1.libs = s.libs ++ added ∧ ∀ m ∈ added, ∃ p ∈ ls, Within m p.2
  | [] => by intro s; rw [loadAll]; exact ⟨[], by simp, by simp⟩
  | (caught, l) :: ls => by
    intro s
    obtain ⟨a1, h1, hw1, _⟩ := load_added l s
    obtain ⟨a2, h2, hw2⟩ := loadAll_added ls (load s l).1
    rw [loadAll]
    split
    · exact ⟨a1, h1, fun m hm => ⟨(caught, l), List.mem_cons_self, hw1 m hm⟩⟩
    · refine ⟨a1 ++ a2, by rw [h2, h1, List.append_assoc], ?_⟩
      intro m hm
      rcases List.mem_append.1 hm with hm | hm
      · exact ⟨(caught, l), List.mem_cons_self, hw1 m hm⟩
      · obtain ⟨p, hp, h⟩ := hw2 m hm
        exact ⟨p, List.mem_cons_of_mem _ hp, h⟩
end

theorem load_grows (l : Lib) (s : St) : ∃ added, (load s l).1.libs = s.libs ++ added := by
  obtain ⟨a, h, _⟩ := load_added l s
  exact ⟨a, h⟩

theorem load_last (l : Lib) (s : St) (h : (load s l).2 = false) :
    (load s l).1.libs.getLast? = some l := by
  obtain ⟨a, he, _, _, hl⟩ := load_added l s
  have hl := hl h
  rw [he, List.getLast?_append, hl]; rfl

theorem load_refused (l : Lib) (s : St) (h : ¬ Returns l) :
    ∃ added, (load s l).1.libs = s.libs ++ added ∧ ∀ m ∈ added, ∃ p ∈ l.loads, Within m p.2 := by
  obtain ⟨a, he, _, hr, _⟩ := load_added l s
  refine ⟨a, he, hr ?_⟩
  cases hb : (load s l).2
  · exact absurd ((load_returns l s).1 hb) h
  · rfl

theorem loadEach_good (ls : List Lib) : ∀ s, (∀ l ∈ ls, Quiet l) → Good s → Good (loadEach s ls) := by
  induction ls with
  | nil => intro s _ h; exact h
  | cons l ls ih =>
    intro s hq h
    exact ih _ (fun x hx => hq x (List.mem_cons_of_mem _ hx)) (load_good l s (hq l List.mem_cons_self) h)

theorem unload_spec (reads : St → Bool) : ∀ (n : Nat) (s : St), s.libs.length = n →
    (∀ l ∈ s.libs, l.unloads = []) →
    unload reads n s =
      some ⟨[], s.trace ++ (s.libs.reverse.map fun l => Ev.fin l.id)⟩ := by
  intro n
  induction n with
  | zero =>
    intro s hn _
    have : s.libs = [] := List.eq_nil_of_length_eq_zero hn
    rw [unload, if_pos (by rw [this]; rfl)]
    cases s
    simp_all
  | succ n ih =>
    intro s hn hq
    have hne : s.libs ≠ [] := by intro h; rw [h] at hn; cases hn
    obtain ⟨init, l, hl⟩ : ∃ init l, s.libs = init ++ [l] :=
      ⟨_, _, (List.dropLast_concat_getLast hne).symm⟩
    have hu : l.unloads = [] := hq l (by rw [hl]; simp)
    have h1 : unloadOne reads s = some ⟨init, s.trace ++ [.fin l.id]⟩ := by
      unfold unloadOne
      rw [hl, List.getLast?_concat]
      simp only [hu, loadEach, St.emit, hl]
      rw [if_neg (by simp)]
      simp
    rw [unload, if_neg (by rw [hl]; simp), h1]
    simp only
    rw [ih ⟨init, _⟩ (by rw [hl] at hn; simpa using hn)
      (fun x hx => hq x (by rw [hl]; exact List.mem_append_left _ hx))]
    rw [hl]
    simp

/-! ### Properties -/

/-- C89, partial. Whatever libraries are loaded, by the user and by each other's `Initialise`, with
whatever results and exceptions: when the simulator is destroyed, the libraries for which
`LoadLibrary` returned are finalised, each as many times as it returned, in the reverse order, and
no others; nothing was finalised before. (No `Finalise` loads a library: see `C89_fails`.) -/
theorem C89_partial (reads : St → Bool) (ls : List Lib) (hq : ∀ l ∈ ls, Quiet l) :
    let s := loadings ls
    fins s.trace = [] ∧
    ∃ s', unload reads s.libs.length s = some s' ∧ s'.libs = [] ∧
      s'.trace = s.trace ++ ((readies s.trace).reverse.map Ev.fin) := by
  intro s
  have hg : Good s := loadEach_good ls _ hq ⟨rfl, rfl, by simp⟩
  refine ⟨hg.none, _, unload_spec reads _ s rfl hg.quiet, rfl, ?_⟩
  rw [← hg.held]
  simp [List.map_reverse, Function.comp_def]

/-- C89. `LoadLibrary` returns exactly for the libraries that the specification says, in whatever
state; then, and only then, the library itself is added, after those that its `Initialise` loaded;
and no library held before is lost or moved. -/
theorem C89_returns (l : Lib) (s : St) :
    ((load s l).2 = false ↔ Returns l) ∧
    (∃ added, (load s l).1.libs = s.libs ++ added) ∧
    (Returns l → (load s l).1.libs.getLast? = some l) :=
  ⟨load_returns l s, load_grows l s, fun h => load_last l s ((load_returns l s).2 h)⟩

/-- C89. A library whose load raises is itself neither held nor finalised: what was added comes from
its `Initialise` alone. -/
theorem C89_refused (l : Lib) (s : St) (h : ¬ Returns l) :
    (load s l).2 = true ∧
    ∃ added, (load s l).1.libs = s.libs ++ added ∧ ∀ m ∈ added, ∃ p ∈ l.loads, Within m p.2 := by
  refine ⟨?_, load_refused l s h⟩
  cases hb : (load s l).2
  · exact absurd ((load_returns l s).1 hb) h
  · rfl

/-! ### Cases -/

def plain (id : Nat) (loads : List (Bool × Lib)) (r : Option Bool) : Lib :=
  .mk id true true true loads r []

/-- Library 1 loads 2 and 3 (3 fails, caught), library 4 loads 5 and then fails. -/
def demo : List Lib :=
  [plain 1 [(true, plain 2 [] (some true)), (true, plain 3 [] (some false))] (some true),
   plain 4 [(true, plain 5 [] (some true))] (some false)]

theorem plain_quiet {id loads r} (h : ∀ p ∈ loads, Quiet p.2) : Quiet (plain id loads r) :=
  Quiet.mk h

example : (∀ l ∈ demo, Quiet l) ∧ readies (loadings demo).trace = [2, 1, 5] := by
  constructor
  · have h0 : ∀ id r, Quiet (plain id [] r) := fun id r => plain_quiet (by simp)
    intro l hl
    simp only [demo, List.mem_cons, List.not_mem_nil, or_false] at hl
    rcases hl with rfl | rfl
    · apply plain_quiet
      intro p hp
      simp only [List.mem_cons, List.not_mem_nil, or_false] at hp
      rcases hp with rfl | rfl <;> exact h0 _ _
    · apply plain_quiet
      intro p hp
      simp only [List.mem_cons, List.not_mem_nil, or_false] at hp
      subst hp; exact h0 _ _
  · decide +kernel

example : Returns (plain 1 [(false, plain 2 [] (some true)), (true, plain 3 [] none)] (some true)) ∧
    ¬ Returns (plain 1 [(false, plain 2 [] (some false))] (some true)) := by
  constructor
  · rw [← load_returns _ ⟨[], []⟩]; decide +kernel
  · rw [← load_returns _ ⟨[], []⟩]; decide +kernel

/-- C89 fails: when `Finalise` of a library loads another one, that one is removed from the list in
its place, without having been finalised, and the library is finalised again, without end. If there
is a logger and the vector moved its storage, the behaviour is undefined at once. -/
theorem C89_fails : ∃ (s : St) (l m : Lib), s = loadings [l] ∧ s.libs = [l] ∧ l.unloads = [m] ∧
    (∀ fuel, unload (fun _ => false) fuel s = none) ∧
    (∃ s', unloadOne (fun _ => false) s = some s' ∧ s'.libs = [l] ∧ fins s'.trace = [l.id] ∧
      readies s'.trace = [l.id, m.id]) ∧
    unloadOne (fun _ => true) s = none := by
  have loop : ∀ fuel t, unload (fun _ => false) fuel
      ⟨[.mk 1 true true true [] (some true) [plain 2 [] (some true)]], t⟩ = none := by
    intro fuel
    induction fuel with
    | zero => intro t; rfl
    | succ f ih =>
      intro t
      rw [unload, if_neg (by simp)]
      exact ih _
  exact ⟨_, .mk 1 true true true [] (some true) [plain 2 [] (some true)],
    plain 2 [] (some true), rfl, rfl, rfl, fun fuel => loop fuel _, ⟨_, rfl, rfl, rfl, rfl⟩, rfl⟩

/-! ### Exceptions of `Finalise` -/

/-- The list up to and with the first one that raises. -/
def upTo (raises : Lib → Bool) : List Lib → List Lib
  | [] => []
  | l :: ls => if raises l then [l] else l :: upTo raises ls

theorem unloadRaising_spec (reads : St → Bool) (raises : Lib → Bool) : ∀ (n : Nat) (s : St),
    s.libs.length ≤ n → (∀ l ∈ s.libs, l.unloads = []) →
    (s.libs.any raises = false ∧ ∃ s', unloadRaising reads raises n s = .done s' ∧ s'.libs = [] ∧
      s'.trace = s.trace ++ (s.libs.reverse.map fun l => Ev.fin l.id)) ∨
    (s.libs.any raises = true ∧ ∃ s', unloadRaising reads raises n s = .terminated s' ∧
      s'.trace = s.trace ++ ((upTo raises s.libs.reverse).map fun l => Ev.fin l.id)) := by
  intro n
  induction n with
  | zero =>
    intro s hn _
    have : s.libs = [] := List.eq_nil_of_length_eq_zero (by omega)
    refine .inl ⟨by simp [this], s, ?_, this, by simp [this]⟩
    rw [unloadRaising, if_pos (by rw [this]; rfl)]
  | succ n ih =>
    intro s hn hq
    by_cases hne : s.libs = []
    · refine .inl ⟨by simp [hne], s, ?_, hne, by simp [hne]⟩
      rw [unloadRaising, hne]
      rfl
    obtain ⟨init, l, hl⟩ : ∃ init l, s.libs = init ++ [l] :=
      ⟨_, _, (List.dropLast_concat_getLast hne).symm⟩
    have hu : l.unloads = [] := hq l (by rw [hl]; simp)
    have h1 : unloadOne reads s = some ⟨init, s.trace ++ [.fin l.id]⟩ := by
      unfold unloadOne
      rw [hl, List.getLast?_concat]
      simp only [hu, loadEach, St.emit, hl]
      rw [if_neg (by simp)]
      simp
    have hlast : s.libs.getLast? = some l := by rw [hl, List.getLast?_concat]
    rw [unloadRaising, hlast]
    simp only [h1, hu, loadEach]
    by_cases hr : raises l = true
    · refine .inr ⟨by simp [hl, hr], _, by rw [if_pos hr], ?_⟩
      simp [St.emit, hl, upTo, hr]
    · have ih' := ih ⟨init, s.trace ++ [.fin l.id]⟩ (by rw [hl] at hn; simpa using hn)
        (fun x hx => hq x (by rw [hl]; exact List.mem_append_left _ hx))
      rw [if_neg hr]
      rcases ih' with ⟨ha, s', h2, h3, h4⟩ | ⟨ha, s', h2, h4⟩
      · refine .inl ⟨by simp only [hl, List.any_append]; simp_all, s', h2, h3, ?_⟩
        rw [h4, hl]; simp
      · refine .inr ⟨by simp only [hl, List.any_append]; simp_all, s', h2, ?_⟩
        rw [h4, hl]; simp [upTo, hr]

/-- C89, partial, with exceptions. When neither the `Hold` and `Exit` made first nor a `Finalise` of the
libraries held raises, the destructor ends as in `C89_partial`. -/
theorem C89_destroy_partial (reads : St → Bool) (raises : Lib → Bool) (ls : List Lib)
    (hq : ∀ l ∈ ls, Quiet l) :
    let s := loadings ls
    (∀ l ∈ s.libs, raises l = false) →
    ∀ fuel, s.libs.length ≤ fuel → ∃ s', destroy reads raises false fuel s = .done s' ∧ s'.libs = [] ∧
      s'.trace = s.trace ++ ((readies s.trace).reverse.map Ev.fin) := by
  intro s hn fuel hf
  have hg : Good s := loadEach_good ls _ hq ⟨rfl, rfl, by simp⟩
  rcases unloadRaising_spec reads raises _ s hf hg.quiet with ⟨_, s', h1, h2, h3⟩ | ⟨ha, _⟩
  · refine ⟨s', ?_, h2, ?_⟩
    · rw [destroy, if_neg (by simp)]; exact h1
    · rw [h3, ← hg.held]
      simp [List.map_reverse, Function.comp_def]
  · obtain ⟨l, hl, hr⟩ := List.any_eq_true.1 ha
    rw [hn l hl] at hr; cases hr

/-- C89 fails when a `Finalise` raises, whatever the libraries: the program ends, and of the libraries
held exactly those loaded after the last one that raises, and this one, were finalised. -/
theorem C89_raise_fails (reads : St → Bool) (raises : Lib → Bool) (ls : List Lib)
    (hq : ∀ l ∈ ls, Quiet l) :
    let s := loadings ls
    (∃ l ∈ s.libs, raises l = true) →
    ∀ fuel, s.libs.length ≤ fuel → ∃ (s' : St) (before after : List Lib) (l : Lib),
      destroy reads raises false fuel s = .terminated s' ∧
      s.libs = before ++ l :: after ∧ raises l = true ∧ (∀ m ∈ after, raises m = false) ∧
      fins s'.trace = (l :: after).reverse.map Lib.id := by
  intro s ⟨l0, hl0, hr0⟩ fuel hf
  have hg : Good s := loadEach_good ls _ hq ⟨rfl, rfl, by simp⟩
  have split : ∀ xs : List Lib, xs.any raises = true → ∃ before l after, xs = before ++ l :: after ∧
      raises l = true ∧ (∀ m ∈ before, raises m = false) ∧ upTo raises xs = before ++ [l] := by
    intro xs
    induction xs with
    | nil => intro h; cases h
    | cons x xs ih =>
      intro h
      by_cases hx : raises x = true
      · exact ⟨[], x, xs, rfl, hx, by simp, by simp [upTo, hx]⟩
      · obtain ⟨b, l, a, h1, h2, h3, h4⟩ := ih (by simpa [List.any_cons, hx] using h)
        refine ⟨x :: b, l, a, by simp [h1], h2, ?_, by simp [upTo, hx, h4]⟩
        intro m hm
        rcases List.mem_cons.1 hm with rfl | hm
        · simpa using hx
        · exact h3 m hm
  rcases unloadRaising_spec reads raises _ s hf hg.quiet with ⟨ha, _⟩ | ⟨ha, s', h1, h2⟩
  · have := List.any_eq_false.1 ha l0 hl0
    exact absurd hr0 this
  · obtain ⟨b, l, a, e1, e2, e3, e4⟩ := split s.libs.reverse (by rw [List.any_reverse]; exact ha)
    have e5 : s.libs = a.reverse ++ l :: b.reverse := by
      have := congrArg List.reverse e1
      simpa using this
    refine ⟨s', a.reverse, b.reverse, l, by rw [destroy, if_neg (by simp)]; exact h1, e5, e2,
      by simpa using e3, ?_⟩
    rw [h2, e4]
    have h0 := hg.none
    simp only [fins, List.filterMap_append] at h0 ⊢
    rw [h0]
    simp [List.filterMap_map, Function.comp_def]

/-- C89 fails when a hook of a component raises in the `Exit` that the destructor makes: no library is
finalised. -/
theorem C89_exit_fails (reads : St → Bool) (raises : Lib → Bool) (ls : List Lib)
    (hq : ∀ l ∈ ls, Quiet l) (fuel : Nat) :
    ∃ s', destroy reads raises true fuel (loadings ls) = .terminated s' ∧ fins s'.trace = [] :=
  ⟨loadings ls, rfl, (loadEach_good ls _ hq ⟨rfl, rfl, by simp⟩).none⟩

/-- Of the three libraries held (2, 1, 5), library 1 raises: 5 and 1 are finalised, 2 is not. -/
example : (match destroy (fun _ => false) (fun l => l.id == 1) false 3 (loadings demo) with
    | .terminated s => fins s.trace
    | _ => []) = [5, 1] := by decide +kernel

end Verif.Sim.Library
