import Verif.Path.RoundTrip

/-! Properties C39, C40 and C41. -/
namespace Verif.Path

/-! ### An example tree -/

/-- A simulator with a component `A` (an entry point `run`, a structure `s` with an array
`t` of two fields and a field `b`, a container `kids`, a failure `bad`, and a component
`B`) and a component `C`. -/
def sample (extra : List Node) : Node :=
  .mk .simulator "sim".toList
    [.mk .component "A".toList
      ([.mk .entryPoint "run".toList [],
        .mk .structField "s".toList
          [.mk .arrayField "t".toList
            [.mk .simpleField "[0]".toList [], .mk .simpleField "[1]".toList []],
           .mk .simpleField "b".toList []],
        .mk .container "kids".toList [],
        .mk .component "B".toList []] ++ extra),
     .mk .component "C".toList []]

/-- No references. -/
def noRefs : Refs := fun _ => []

/-- `Wf` of a finite tree, as a check on its nodes. -/
def okNode (n : Node) : Bool :=
  n.children.all (fun c => allowed n.kind c.kind && decide (checkName (some c.name) = .ok c.name)) &&
  (List.range n.children.length).all (fun i => (List.range n.children.length).all (fun j =>
    i == j || (n.children[i]?.map Node.name) != (n.children[j]?.map Node.name) ||
      (n.children[i]?.map (·.kind.named)) != some true ||
      (n.children[j]?.map (·.kind.named)) != some true)) &&
  (n.kind != .arrayField || (List.range n.children.length).all (fun i =>
    (n.children[i]?.map Node.name) == some ('[' :: (Nat.toDigits 10 i ++ [']'])))) &&
  decide (n.children.length ≤ 9223372036854775807)

mutual
def okTree : Node → Bool
  | .mk k s l => okNode (.mk k s l) && okTrees l
def okTrees : List Node → Bool
  | [] => true
  | n :: l => okTree n && okTrees l
end

theorem okTrees_mem {l : List Node} (h : okTrees l = true) {c : Node} (hc : c ∈ l) :
    okTree c = true := by
  induction l with
  | nil => simp at hc
  | cons x l ih =>
    simp only [okTrees, Bool.and_eq_true] at h
    rcases List.mem_cons.mp hc with rfl | hc
    · exact h.1
    · exact ih h.2 hc

theorem okTree_get {T : Node} (h : okTree T = true) (a : Addr) :
    ∀ n, get T a = some n → okTree n = true := by
  induction a with
  | nil => intro n hn; simp [get] at hn; subst hn; exact h
  | cons i p ih =>
    intro n hn
    obtain ⟨m, hm, hc⟩ := get_parent hn
    have := ih m hm
    cases m with
    | mk k s l =>
      simp only [okTree, Bool.and_eq_true] at this
      exact okTrees_mem this.2 (List.mem_of_getElem? hc)

theorem wf_of_ok {T : Node} (hr : T.kind = .simulator) (h : okTree T = true) : Wf T := by
  have hall : ∀ a n, get T a = some n → okNode n = true := by
    intro a n hn
    have := okTree_get h a n hn
    cases n with
    | mk k s l => simp only [okTree, Bool.and_eq_true] at this; exact this.1
  have hp : ∀ a n, get T a = some n → _ := fun a n hn => by
    have := hall a n hn
    simp only [okNode, Bool.and_eq_true, decide_eq_true_eq, List.all_eq_true,
      Bool.or_eq_true, bne_iff_ne, List.mem_range, beq_iff_eq] at this
    exact this
  refine ⟨hr, ?_, ?_, ?_, ?_, ?_⟩
  · intro a n hn c hc; exact ((hp a n hn).1.1.1 c hc).1
  · intro a n hn c hc; exact (checkName_iff _).mp ((hp a n hn).1.1.1 c hc).2
  · intro a n hn i j c d hi hj hc hd e
    have hi' := (List.getElem?_eq_some_iff.mp hi).1
    have hj' := (List.getElem?_eq_some_iff.mp hj).1
    rcases (hp a n hn).1.1.2 i hi' j hj' with ((h | h) | h) | h
    · exact h
    · simp [hi, hj, e] at h
    · simp [hi, hc] at h
    · simp [hj, hd] at h
  · intro a n hn hk i c hc
    have hi' := (List.getElem?_eq_some_iff.mp hc).1
    rcases (hp a n hn).1.2 with h | h
    · exact absurd hk h
    · have := h i hi'
      simpa [hc] using this
  · intro a n hn; exact (hp a n hn).2

theorem sample_wf : Wf (sample []) := wf_of_ok rfl (by decide +kernel)

/-- The component `B` in the sample tree, and the second item of `t`. -/
example : getPath (sample []) [3, 0] = "/A/B".toList := by decide
example : getPath (sample []) [1, 0, 1, 0] = "/A.s.t[1]".toList := by decide

/-! ### C39: resolving an object's path gives back the object

The statement holds for every object except containers, references, operation parameters
and what is below an array made by `IPublication::PublishArray`. -/

/-- C39. In a well-formed tree, resolving the path of an object from the root gives that
object, whatever components are referenced. -/
theorem C39_roundTrip_partial (T : Node) (hT : Wf T) (refs : Refs) (a : Addr) (n : Node)
    (hn : get T a = some n) (hk : n.kind.named = true) (ha : NotInAnonymousArray T a) :
    resolveAbsolute T refs (some (getPath T a)) = some a := by
  have hkey : Resolve T refs [] (getPath T a) = some a := by
    unfold Resolve
    by_cases h0 : a = []
    · subst h0
      have : segments (getPath T []) = [] := rfl
      rw [this]; rfl
    · have hs := segments_getPath hT a n hn ha h0 [] (Or.inl rfl)
      have h1 : segments [] = [] := by decide
      rw [List.append_nil, h1] at hs
      rw [hs]
      exact resolve_pathSegs hT refs a n hn ha hk [] a rfl
  have hhead : ∀ a, (∃ t, (paths T a).1 = '/' :: t) ∧ ∃ t, (paths T a).2 = '/' :: t := by
    intro a
    induction a with
    | nil => exact ⟨⟨[], rfl⟩, [], rfl⟩
    | cons i p ih =>
      obtain ⟨_, t, ht⟩ := ih
      simp only [paths, ht, List.cons_append]
      refine ⟨?_, ?_⟩
      · split
        · exact ⟨_, rfl⟩
        · split
          · exact ⟨_, rfl⟩
          · split <;> exact ⟨_, rfl⟩
      · split
        · exact ⟨_, rfl⟩
        · split
          · exact ⟨_, rfl⟩
          · split
            · exact ⟨_, rfl⟩
            · split <;> exact ⟨_, rfl⟩
  obtain ⟨⟨t, ht⟩, _⟩ := hhead a
  have ht' : getPath T a = '/' :: t := ht
  rw [ht'] at hkey ⊢
  exact hkey

example : ∃ n, get (sample []) [1, 0, 1, 0] = some n ∧ n.kind.named = true := ⟨_, rfl, rfl⟩
example : NotInAnonymousArray (sample []) [1, 0, 1, 0] := by
  intro i p h
  simp only [List.suffix_cons_iff, List.suffix_nil, List.cons.injEq, reduceCtorEq, or_false] at h
  rcases h with ⟨_, rfl⟩ | ⟨_, rfl⟩ | ⟨_, rfl⟩ | ⟨_, rfl⟩ <;> decide +kernel

/-- C39. Different objects have different paths. -/
theorem C39_injective_partial (T : Node) (hT : Wf T) (a b : Addr) (n m : Node)
    (hn : get T a = some n) (hm : get T b = some m) (hk : n.kind.named = true)
    (hl : m.kind.named = true) (ha : NotInAnonymousArray T a)
    (hb : NotInAnonymousArray T b) (h : getPath T a = getPath T b) : a = b := by
  have h1 := C39_roundTrip_partial T hT noRefs a n hn hk ha
  have h2 := C39_roundTrip_partial T hT noRefs b m hm hl hb
  rw [h, h2] at h1
  exact (Option.some.inj h1).symm

/-- C39. A path that does not describe a way through the tree resolves to null: in a tree
without failures, an object found from the simulator or a component by a path without `..`
is reached step by step, each segment being the name of the next object. -/
theorem C39_null_partial (T : Node) (hT : Wf T) (refs : Refs) (hr : RefsOk T refs)
    (hf : ∀ a, kindAt T a ≠ some .failure) (a : Addr)
    (ha : kindAt T a = some .simulator ∨ kindAt T a = some .component) (path : Str)
    (hp : ∀ x ∈ segments path, x.2 ≠ dots)
    (hno : ∀ b, ¬ Walk T refs a (segments path) b) : Resolve T refs a path = none := by
  cases h : Resolve T refs a path with
  | none => rfl
  | some b =>
    refine absurd (resolve_walk hT refs hr hf _ hp a b ?_) (hno b)
    have : stAt T a = .obj := by
      rcases ha with e | e <;> simp [stAt, e, Kind.plainField]
    rw [this]; exact h

/-- C39 (partial), in every tree, from every object, with `..` and failures: an object is found only
along a way of the specification, that is step by step, each segment being `..` or the name of the
next object, but for segments that are lost at fields known as objects only. A path without such a way
resolves to null. Missing: the lost segments, which `C39_null_fails` and `C40_fails` show. -/
theorem C39_way_partial (T : Node) (hT : Wf T) (refs : Refs) (hr : RefsOk T refs) (a : Addr)
    (path : Str) :
    (∀ b, Resolve T refs a path = some b → Way T refs false a (segments path) b) ∧
    ((∀ b, ¬ Way T refs false a (segments path) b) → Resolve T refs a path = none) := by
  have h := resolve_way hT refs hr (segments path) .obj a
  refine ⟨h, fun hno => ?_⟩
  cases hr : Resolve T refs a path with
  | none => rfl
  | some b => exact absurd (h b hr) (hno b)

/-- A way up and down: from the component to its parent, and back by its name. -/
example : Resolve (sample []) noRefs [0] "../A".toList = some [0] ∧
    Way (sample []) noRefs false [0] (segments "../A".toList) [0] :=
  ⟨by decide +kernel, (C39_way_partial _ sample_wf noRefs (by simp [RefsOk, noRefs]) [0] _).1 [0]
    (by decide +kernel)⟩

mutual
/-- No failure in the tree. -/
def noFailure : Node → Bool
  | .mk k _ l => k != .failure && noFailures l
def noFailures : List Node → Bool
  | [] => true
  | n :: l => noFailure n && noFailures l
end

theorem noFailures_mem {l : List Node} (h : noFailures l = true) {c : Node} (hc : c ∈ l) :
    noFailure c = true := by
  induction l with
  | nil => simp at hc
  | cons x l ih =>
    simp only [noFailures, Bool.and_eq_true] at h
    rcases List.mem_cons.mp hc with rfl | hc
    · exact h.1
    · exact ih h.2 hc

theorem noFailure_get {T : Node} (h : noFailure T = true) (a : Addr) :
    ∀ n, get T a = some n → noFailure n = true := by
  induction a with
  | nil => intro n hn; simp [get] at hn; subst hn; exact h
  | cons i p ih =>
    intro n hn
    obtain ⟨m, hm, hc⟩ := get_parent hn
    have := ih m hm
    cases m with
    | mk k s l =>
      simp only [noFailure, Bool.and_eq_true] at this
      exact noFailures_mem this.2 (List.mem_of_getElem? hc)

/-- The hypotheses of `C39_null_partial` hold of the sample tree and the path `X`. -/
example : RefsOk (sample []) noRefs ∧ (∀ a, kindAt (sample []) a ≠ some .failure) ∧
    (∀ x ∈ segments "X".toList, x.2 ≠ dots) ∧
    (∀ b, ¬ Walk (sample []) noRefs [] (segments "X".toList) b) := by
  refine ⟨by simp [RefsOk, noRefs], ?_, by decide, ?_⟩
  · intro a h
    cases hn : get (sample []) a with
    | none => simp [kindAt, hn] at h
    | some n =>
      have h1 : noFailure (sample []) = true := by decide +kernel
      have := noFailure_get h1 a n hn
      cases n with
      | mk k s l =>
        simp [kindAt, hn, Node.kind] at h
        simp [noFailure, h] at this
  · intro b h
    have hs : segments "X".toList = [(false, "X".toList)] := by decide
    rw [hs] at h
    cases h with
    | step h _ =>
      cases h with
      | ref h _ => simp [noRefs] at h
      | @child n i c _ hn hc hk hname =>
        cases hn
        match i, hc with
        | 0, hc => cases hc; simp [Node.name] at hname
        | 1, hc => cases hc; simp [Node.name] at hname
        | i + 2, hc => simp [sample, Node.children] at hc
      | under hn hc hk hname => simp at hname
      | item hn harr _ => cases hn; simp [sample, Node.kind, Kind.isArray] at harr

/-- C39 is false of the code for containers (also for references and parameters): their
path does not resolve. -/
theorem C39_container_fails : ∃ T a n, Wf T ∧ get T a = some n ∧ n.kind = .container ∧
    NotInAnonymousArray T a ∧ getPath T a = "/A.kids".toList ∧
    resolveAbsolute T noRefs (some (getPath T a)) = none := by
  refine ⟨sample [], [2, 0], _, sample_wf, rfl, rfl, ?_, by decide, by decide⟩
  intro i p h
  simp only [List.suffix_cons_iff, List.suffix_nil, List.cons.injEq, reduceCtorEq, or_false] at h
  rcases h with ⟨_, rfl⟩ | ⟨_, rfl⟩ <;> decide +kernel

/-- C39 is false of the code below an array made by `IPublication::PublishArray`: its items
have the parent of the array as parent, so the path of the item leaves the array out. -/
theorem C39_anonymous_fails : ∃ T a n, Wf T ∧ get T a = some n ∧ n.kind = .simpleField ∧
    getPath T a = "/A.[0]".toList ∧
    resolveAbsolute T noRefs (some (getPath T a)) = none := by
  refine ⟨sample [.mk .anonArray "arr".toList [.mk .simpleField "[0]".toList []]],
    [0, 4, 0], _, wf_of_ok rfl (by decide +kernel), rfl, rfl, by decide +kernel,
    by decide +kernel⟩

/-- C39 is false of the code after the name of a failure: the following segment is dropped,
so a path that names nothing resolves to the failure. -/
theorem C39_null_fails : ∃ T a, Wf T ∧ kindAt T a = some .failure ∧
    getPath T a = "/A.bad".toList ∧
    (∀ b, ¬ Walk T noRefs [] (segments "/A.bad.junk".toList) b) ∧
    resolveAbsolute T noRefs (some "/A.bad.junk".toList) = some a := by
  refine ⟨sample [.mk .failure "bad".toList []], [4, 0], wf_of_ok rfl (by decide +kernel),
    rfl, by decide +kernel, ?_, by decide +kernel⟩
  have hs : segments "/A.bad.junk".toList =
      [(false, "A".toList), (true, "bad".toList), (true, "junk".toList)] := by decide
  rw [hs]
  have key : ∀ (a b : Addr) (s : Str),
      Step (sample [.mk .failure "bad".toList []]) noRefs a s b →
      (a = [] → s = "A".toList → b = [0]) ∧ (a = [0] → s = "bad".toList → b = [4, 0]) ∧
      (a = [4, 0] → False) := by
    intro a b s h
    cases h with
    | ref h _ => simp [noRefs] at h
    | child hn hc hk hname =>
      rename_i n i c
      refine ⟨?_, ?_, ?_⟩
      · rintro rfl rfl
        cases hn
        match i, hc with
        | 0, _ => rfl
        | 1, hc => cases hc; simp [Node.name] at hname
        | i + 2, hc => simp [sample, Node.children] at hc
      · rintro rfl rfl
        cases hn
        match i, hc with
        | 0, hc => cases hc; simp [Node.name] at hname
        | 1, hc => cases hc; simp [Node.name] at hname
        | 2, hc => cases hc; simp [Node.name] at hname
        | 3, hc => cases hc; simp [Node.name] at hname
        | 4, _ => rfl
        | i + 5, hc => simp [Node.children] at hc
      · rintro rfl
        cases hn
        simp [Node.children] at hc
    | under hn hc hk hname =>
      rename_i n i c
      refine ⟨?_, ?_, ?_⟩
      · rintro rfl rfl; simp at hname
      · rintro rfl rfl; simp at hname
      · rintro rfl
        cases hn
        simp [Node.children] at hc
    | item hn harr _ =>
      refine ⟨?_, ?_, ?_⟩
      · rintro rfl; cases hn; simp [sample, Node.kind, Kind.isArray] at harr
      · rintro rfl; cases hn; simp [Node.kind, Kind.isArray] at harr
      · rintro rfl; cases hn; simp [Node.kind, Kind.isArray] at harr
  intro b h
  cases h with
  | step h1 h =>
    have := (key _ _ _ h1).1 rfl rfl; subst this
    cases h with
    | step h2 h =>
      have := (key _ _ _ h2).2.1 rfl rfl; subst this
      cases h with
      | step h3 _ => exact (key _ _ _ h3).2.2 rfl

/-! ### C40: path normalisation -/

/-- C40. Repeated slashes count once, anywhere in the path and from any object. -/
theorem C40_slashes (T : Node) (refs : Refs) (a : Addr) (xs ys : Str) :
    Resolve T refs a (xs ++ '/' :: '/' :: ys) = Resolve T refs a (xs ++ '/' :: ys) := by
  unfold Resolve
  rw [segments_append_slash, segments_append_slash]
  have : segments ('/' :: ys) = segments ys := segments_append_slash [] ys
  rw [this]

/-- C40. A `.` between two slashes has no effect. -/
theorem C40_dot (T : Node) (refs : Refs) (a : Addr) (xs ys : Str) :
    Resolve T refs a (xs ++ '/' :: '.' :: '/' :: ys) = Resolve T refs a (xs ++ '/' :: ys) := by
  unfold Resolve
  rw [segments_append_slash, segments_append_slash]
  have : segments ('.' :: '/' :: ys) = segments ['.'] ++ segments ys :=
    segments_append_slash ['.'] ys
  rw [this]
  rfl

/-- C40. A `.` at the end, and a slash at the end, have no effect. -/
theorem C40_dot_last (T : Node) (refs : Refs) (a : Addr) (xs : Str) :
    Resolve T refs a (xs ++ ['/', '.']) = Resolve T refs a xs ∧
      Resolve T refs a (xs ++ ['/']) = Resolve T refs a xs := by
  unfold Resolve
  have h1 : segments ['.'] = [] := by decide
  have h2 : segments [] = [] := by decide
  constructor
  · rw [segments_append_slash xs ['.'], h1, List.append_nil]
  · rw [segments_append_slash xs [], h2, List.append_nil]

/-- C40. A `.` in front has no effect. -/
theorem C40_dot_first (T : Node) (refs : Refs) (a : Addr) (ys : Str) :
    Resolve T refs a ('.' :: '/' :: ys) = Resolve T refs a ys := by
  unfold Resolve
  have : segments ('.' :: '/' :: ys) = segments ['.'] ++ segments ys :=
    segments_append_slash ['.'] ys
  rw [this]
  rfl

theorem segments_dots_slash (ys : Str) :
    segments ('.' :: '.' :: '/' :: ys) = (false, dots) :: segments ys := by
  have : segments ('.' :: '.' :: '/' :: ys) = segments ['.', '.'] ++ segments ys :=
    segments_append_slash ['.', '.'] ys
  rw [this]
  rfl

theorem paths_scope (T : Node) : ∀ p : Addr, (paths T p).2 = getPath T (scope T p)
  | [] => rfl
  | i :: p => by
    by_cases h : kindAt T (i :: p) = some .anonArray
    · have h1 : (paths T (i :: p)).2 = (paths T p).2 := by simp only [paths, if_pos h]
      have h2 : scope T (i :: p) = scope T p := by simp only [scope, if_pos h]
      rw [h1, h2]; exact paths_scope T p
    · have h1 : (paths T (i :: p)).2 = (paths T (i :: p)).1 := by simp only [paths, if_neg h]
      have h2 : scope T (i :: p) = i :: p := by simp only [scope, if_neg h]
      rw [h1, h2]; rfl

/-- C39. The path of an object is that of its parent, a separator and its name: no separator below the
simulator and in arrays, `/` before components and `.` before all others. -/
theorem C39_parent (T : Node) (a p : Addr) (h : parent T a = some p) :
    getPath T a = getPath T p ++
      (if p = [] ∨ (kindAt T a ≠ some .component ∧ ∃ k, kindAt T p = some k ∧ k.isArray = true) then []
       else if kindAt T a = some .component then ['/'] else ['.']) ++ nameAt T a := by
  cases a with
  | nil => cases h
  | cons i q =>
    injection h with h
    subst h
    have e : ((∃ k, kindAt T (scope T q) = some k ∧ k.isArray = true)) ↔
        ((kindAt T (scope T q)).map Kind.isArray) = some true := by
      cases kindAt T (scope T q) <;> simp
    have hp : (paths T q).2 = getPath T (scope T q) := paths_scope T q
    show (paths T (i :: q)).1 = _
    simp only [paths, hp, e]
    by_cases h1 : scope T q = []
    · simp [h1]
    · by_cases h2 : kindAt T (i :: q) = some .component
      · simp [h1, h2]
      · by_cases h3 : ((kindAt T (scope T q)).map Kind.isArray) = some true
        · simp [h1, h2, h3]
        · rw [if_neg h1, if_neg h2, if_neg h3, if_neg (by simp [h1, h2, h3]), if_neg h2]; simp

/-- C40. The parent is the object that holds it, but the items of an array made by
`IPublication::PublishArray` have the parent of the array. -/
theorem C40_parent (T : Node) (i : Nat) (p : Addr) :
    (kindAt T p ≠ some .anonArray ∨ p = [] → parent T (i :: p) = some p) ∧
    (kindAt T p = some .anonArray → p ≠ [] → parent T (i :: p) = parent T p) ∧
    parent T [] = none := by
  refine ⟨fun h => ?_, fun h h0 => ?_, rfl⟩
  · cases p with
    | nil => rfl
    | cons j q =>
      have : ¬ kindAt T (j :: q) = some .anonArray := by simpa using h
      simp only [parent, scope, if_neg this]
  · cases p with
    | nil => exact absurd rfl h0
    | cons j q => simp only [parent, scope, if_pos h]

/-- The item of an anonymous array, and an entry point. -/
example : parent (sample [.mk .anonArray "arr".toList [.mk .simpleField "[0]".toList []]]) [0, 4, 0] =
      some [0] ∧
    kindAt (sample [.mk .anonArray "arr".toList [.mk .simpleField "[0]".toList []]]) [4, 0] =
      some .anonArray ∧
    parent (sample []) [0, 0] = some [0] ∧ getPath (sample []) [0, 0] = "/A.run".toList := by
  decide +kernel

/-- C40. `..` goes to the parent of the object resolved so far and the rest of the path is
resolved from there; at the simulator it gives null. -/
theorem C40_dotdot (T : Node) (refs : Refs) (a b p c : Addr) (xs ys : Str)
    (h1 : Resolve T refs a xs = some b) (h2 : parent T b = some p)
    (h3 : Resolve T refs p ys = some c) :
    Resolve T refs a (xs ++ '/' :: '.' :: '.' :: '/' :: ys) = some c := by
  unfold Resolve at *
  rw [segments_append_slash, segments_dots_slash]
  exact resolve_dots T refs _ _ _ _ _ _ _ _ h1 h2 h3

example : Resolve (sample []) noRefs [] "A/B".toList = some [3, 0] ∧
    parent (sample []) [3, 0] = some [0] ∧
    Resolve (sample []) noRefs [0] "run".toList = some [0, 0] := by decide

/-- C40. `..` from the object itself: the result is that of the parent, in all cases. -/
theorem C40_dotdot_first (T : Node) (refs : Refs) (a : Addr) (ys : Str) :
    Resolve T refs a ('.' :: '.' :: '/' :: ys) =
      match parent T a with
      | none => none
      | some p => Resolve T refs p ys := by
  unfold Resolve
  rw [segments_dots_slash]
  simp only [resolve, dots, if_true]
  cases parent T a <;> rfl

/-- C40. An absolute path starts at the simulator; anything else is rejected by
`ResolveAbsolute`, and an absolute path by `ResolveRelative`. -/
theorem C40_absolute (T : Node) (refs : Refs) (sender : Addr) :
    (∀ p, resolveAbsolute T refs (some ('/' :: p)) = Resolve T refs [] p) ∧
      (∀ c p, c ≠ '/' → resolveAbsolute T refs (some (c :: p)) = none) ∧
      resolveAbsolute T refs (some []) = none ∧ resolveAbsolute T refs none = none ∧
      (∀ p, resolveRelative T refs (some ('/' :: p)) sender = none) ∧
      (∀ c p, c ≠ '/' → resolveRelative T refs (some (c :: p)) sender =
        Resolve T refs sender (c :: p)) ∧
      resolveRelative T refs none sender = none := by
  refine ⟨?_, ?_, rfl, rfl, ?_, ?_, rfl⟩
  · intro p
    simp only [resolveAbsolute, Resolve]
    have : segments ('/' :: p) = segments p := segments_append_slash [] p
    rw [this]
  · intro c p h
    unfold resolveAbsolute
    split
    · rename_i q e; simp at e; exact absurd e.1 h
    · rfl
  · intro p; simp [resolveRelative]
  · intro c p h; simp [resolveRelative, h]

/-- C40. In an array, a segment leads to the item it designates (an index, counted from the end
when negative), and to nothing when it designates no item. -/
theorem C40_index (T : Node) (refs : Refs) (a : Addr) (n : Node) (d : Bool) (s : Str)
    (rest : List Seg) (hT : Wf T) (hn : get T a = some n) (hk : n.kind.isArray = true)
    (hs : s ≠ dots) :
    (∀ i, Designates s n.children.length i →
      resolve T refs .field a ((d, s) :: rest) = resolve T refs .field (i :: a) rest) ∧
    ((¬ ∃ i, Designates s n.children.length i) →
      resolve T refs .field a ((d, s) :: rest) = none) := by
  have hk' : n.kind ≠ .structField := by intro h; rw [h] at hk; cases hk
  have e : ∀ i, arrayIndex s n.children.length = some i ↔ Designates s n.children.length i :=
    fun i => arrayIndex_iff _ _ _ (hT.size a n hn)
  constructor
  · intro i hi
    rw [resolve_cons]
    simp only [cands]
    rw [if_neg (show ¬ s = ['.', '.'] from hs), hn]
    simp only
    rw [if_neg hk', if_pos hk, (e i).2 hi]
    simp only [List.findSome?_cons, List.findSome?_nil]
    cases resolve T refs .field (i :: a) rest <;> rfl
  · intro h
    rw [resolve_cons]
    simp only [cands]
    rw [if_neg (show ¬ s = ['.', '.'] from hs), hn]
    simp only
    rw [if_neg hk', if_pos hk]
    cases hx : arrayIndex s n.children.length with
    | none => rfl
    | some i => exact absurd ⟨i, (e i).1 hx⟩ h

example : Wf (sample []) ∧ kindAt (sample []) [0, 1, 0] = some .arrayField ∧
    Designates "[-2]".toList 2 0 ∧ Designates "[ +1]".toList 2 1 ∧
    Resolve (sample []) noRefs [0] "s.t[-2]".toList = some [0, 0, 1, 0] ∧
    Resolve (sample []) noRefs [0] "s.t[1 ]".toList = none :=
  ⟨sample_wf, rfl,
    ⟨[], ['-'], ['2'], rfl, by simp, by simp, by simp, by decide, .inr ⟨rfl, .inl (by decide)⟩⟩,
    ⟨[' '], ['+'], ['1'], rfl, by simp [Blank], by simp, by simp, by decide,
      .inl ⟨.inr rfl, by decide⟩⟩,
    by decide +kernel, by decide +kernel⟩

/-- C40 is false of the code when `..` leads from a field to an enclosing field: the parent
is then known as `IObject *`, and the segment that follows is dropped. `s.b/../t` gives `s`
instead of `s.t`. -/
theorem C40_fails : ∃ T a, Wf T ∧ kindAt T a = some .component ∧
    Resolve T noRefs a "s.t".toList = some [0, 1, 0] ∧
    Resolve T noRefs a "s.b/../t".toList = some [1, 0] :=
  ⟨sample [], [0], sample_wf, rfl, by decide +kernel, by decide +kernel⟩

/-! ### C41: names -/

/-- C41. `checkName` accepts a string, and returns it, exactly when it matches the grammar;
the null pointer and all other strings are rejected with `InvalidObjectName`. -/
theorem C41_checkName (s : Option Str) :
    (∀ t, checkName s = .ok t ↔ s = some t ∧ Grammar t) ∧
      (checkName s = .invalidObjectName ↔ ∀ t, s = some t → ¬ Grammar t) := by
  have h1 : ∀ t, checkName s = .ok t ↔ s = some t ∧ Grammar t := by
    intro t
    constructor
    · intro h
      rcases checkName_cases s with e | ⟨u, rfl, e⟩
      · rw [h] at e; cases e
      · rw [h] at e; cases e; exact ⟨rfl, (checkName_iff t).mp h⟩
    · rintro ⟨rfl, h⟩; exact (checkName_iff t).mpr h
  refine ⟨h1, ?_⟩
  constructor
  · intro h t e hg
    have := (h1 t).mpr ⟨e, hg⟩
    rw [h] at this; cases this
  · intro h
    rcases checkName_cases s with e | ⟨u, rfl, e⟩
    · exact e
    · exact absurd ((h1 u).mp e).2 (h u rfl)

example : checkName (some "Abc_9".toList) = .ok "Abc_9".toList := by decide
example : checkName (some "[12]".toList) = .ok "[12]".toList := by decide
example : checkName (some "a[1]".toList) = .invalidObjectName := by decide
example : checkName (some "".toList) = .invalidObjectName := by decide

end Verif.Path
