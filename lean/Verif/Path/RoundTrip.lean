import Verif.Path.Resolve

/-! `getPath` and `resolve` in a well-formed tree. -/
namespace Verif.Path

/-! ### Children -/

theorem child_some {n : Node} {ok : Kind → Bool} {s : Str} {i : Nat}
    (h : child n ok s = some i) :
    ∃ c, n.children[i]? = some c ∧ ok c.kind = true ∧ c.name = s := by
  unfold child at h
  rw [List.findIdx?_eq_some_iff_getElem] at h
  obtain ⟨hi, hp, _⟩ := h
  simp at hp
  exact ⟨n.children[i], by simp [hi], hp.1, hp.2⟩

theorem child_none {n : Node} {ok : Kind → Bool} {s : Str} (h : child n ok s = none)
    {i : Nat} {c : Node} (hc : n.children[i]? = some c) (hk : ok c.kind = true) :
    c.name ≠ s := by
  intro e
  unfold child at h
  rw [List.findIdx?_eq_none_iff] at h
  have := h c (List.mem_of_getElem? hc)
  simp [hk, e] at this

/-- In a well-formed tree the name decides which child is found. -/
theorem child_eq {T : Node} (hT : Wf T) {a : Addr} {n : Node} (hn : get T a = some n)
    {i : Nat} {c : Node} (hc : n.children[i]? = some c) (hc' : c.kind.named = true)
    {ok : Kind → Bool} (hok : ∀ k, ok k = true → k.named = true) :
    child n ok c.name = if ok c.kind = true then some i else none := by
  cases h : child n ok c.name with
  | none =>
    split
    · rename_i hk; exact absurd rfl (child_none h hc hk)
    · rfl
  | some j =>
    obtain ⟨d, hd, hk, e⟩ := child_some h
    have := hT.distinct a n hn j i d c hd hc (hok _ hk) hc' e
    subst this
    rw [hc] at hd
    cases hd
    rw [if_pos hk]

theorem get_cons {T : Node} {a : Addr} {n : Node} (hn : get T a = some n) (i : Nat) :
    get T (i :: a) = n.children[i]? := by
  simp [get, hn]

/-- The type with which `Resolve` is called on the way to an object. -/
def stAt (T : Node) (a : Addr) : St :=
  if ((kindAt T a).map Kind.plainField) = some true then .field else .obj

theorem stAt_of {T : Node} {a : Addr} {n : Node} (hn : get T a = some n) :
    stAt T a = if n.kind.plainField = true then .field else .obj := by
  simp [stAt, kindAt, hn]

/-! ### Indices of arrays -/

theorem toDigits_isDigit (i : Nat) : ∀ c ∈ Nat.toDigits 10 i, c.isDigit = true :=
  fun _ h => Nat.isDigit_of_mem_toDigits (by decide) (by decide) h

theorem isDigit_notSpace {c : Char} (h : c.isDigit = true) : isSpace c = false := by
  simp [isSpace, Char.isDigit] at *
  refine ⟨?_, ?_⟩
  · intro e; subst e; simp at h
  · intro _
    have : (48 : Nat) ≤ c.val.toNat := h.1
    show (14 : Nat) ≤ c.val.toNat
    omega

theorem arrayIndex_item (i size : Nat) (hi : i < size) (hs : size ≤ 9223372036854775807) :
    arrayIndex ('[' :: (Nat.toDigits 10 i ++ [']'])) size = some i := by
  have hd := toDigits_isDigit i
  have hval : Nat.ofDigitChars 10 (Nat.toDigits 10 i) 0 = i :=
    Nat.ofDigitChars_toDigits (by decide) (by decide)
  have hne : Nat.toDigits 10 i ≠ [] := Nat.toDigits_ne_nil
  generalize Nat.toDigits 10 i = ds at *
  cases ds with
  | nil => exact absurd rfl hne
  | cons d ds =>
    have hd0 : d.isDigit = true := hd d (by simp)
    have hsp := isDigit_notSpace hd0
    have hm : d ≠ '-' := by intro e; subst e; simp at hd0
    have hp : d ≠ '+' := by intro e; subst e; simp at hd0
    have htw : (d :: ds ++ [']']).takeWhile Char.isDigit = d :: ds := by
      have := List.takeWhile_append_of_pos (p := Char.isDigit) (l₁ := d :: ds) (l₂ := [']']) hd
      rw [this]; simp
    have hst : stoll (d :: ds ++ [']']) = some ((i : Int), (d :: ds).length) := by
      unfold stoll
      simp only [List.cons_append, List.takeWhile_cons, List.dropWhile_cons, hsp,
        Bool.false_eq_true, if_false, List.head?_cons, Option.some.injEq, hm, hp, decide_false,
        Bool.or_self, List.length_nil]
      rw [← List.takeWhile_cons, ← List.cons_append, htw, hval]
      rw [if_neg (by simp), if_pos (by omega)]
      simp
    unfold arrayIndex
    rw [if_pos (by simp [List.getLast?_cons])]
    simp only [List.drop_succ_cons, List.drop_zero, hst]
    rw [if_pos (by simp)]
    simp
    omega

/-! ### One step -/

theorem underChild_name {n : Node} {s : Str} (hs : Grammar s) : underChild n s = none := by
  obtain ⟨c, t, rfl, _, _, h⟩ := hs.head
  unfold underChild
  split
  · rename_i e; simp at e; exact absurd e.1 h
  · rfl

theorem findSome_head {α β} {f : α → Option β} {x : α} {l m : List α} {b : β}
    (hl : l = x :: m) (h : f x = some b) : l.findSome? f = some b := by
  rw [hl, List.findSome?_cons, h]

theorem resolve_child {T : Node} (hT : Wf T) (refs : Refs) {a : Addr} {n : Node}
    (hn : get T a = some n) {i : Nat} {c : Node} (hc : n.children[i]? = some c)
    (hk : c.kind.named = true) (han : n.kind ≠ .anonArray) (d : Bool)
    (hd : c.kind = .component → d = false) {rest : List Seg} {b : Addr}
    (h : resolve T refs (stAt T (i :: a)) (i :: a) rest = some b) :
    resolve T refs (stAt T a) a ((d, c.name) :: rest) = some b := by
  have hmem := List.mem_of_getElem? hc
  have hg := hT.names a n hn c hmem
  have hal := hT.kinds a n hn c hmem
  have hci : get T (i :: a) = some c := by rw [get_cons hn, hc]
  have hnm : ∀ k : Kind, k.named = true → ∀ k', (k' == k) = true → k'.named = true := by
    intro k hk k' e; simp at e; rw [e]; exact hk
  have hch := fun ok hok => child_eq hT hn hc hk (ok := ok) hok
  rw [resolve_cons]
  suffices hh : ∃ m, cands T refs (stAt T a) a d c.name = (stAt T (i :: a), i :: a) :: m by
    obtain ⟨m, hm⟩ := hh
    exact findSome_head hm h
  rw [stAt_of hn, stAt_of hci]
  unfold cands
  rw [if_neg hg.ne_dots, hn]
  simp only
  rcases hnk : n.kind with _ | _ | _ | _ | _ | _ | _ | _ | _ | _ | _ | _ | _ | _ | _ <;>
    rw [hnk] at hal <;> simp only [allowed, Bool.false_eq_true] at hal
  -- simulator
  · have hcc : c.kind = .component := by
      rcases hckk : c.kind with _ | _ | _ | _ | _ | _ | _ | _ | _ | _ | _ | _ | _ | _ | _ <;>
        rw [hckk] at hal hk <;> simp_all [Kind.named]
    have hsd := hd hcc
    subst hsd
    simp only [Kind.plainField, Bool.false_eq_true, if_false, underChild_name hg]
    rw [hch (· == .sink) (hnm _ rfl), hch (· == .source) (hnm _ rfl),
      hch (· == .entryPoint) (hnm _ rfl), hch (· == .operation) (hnm _ rfl),
      hch (· == .property) (hnm _ rfl), hch (· == .failure) (hnm _ rfl),
      hch (· == .component) (hnm _ rfl)]
    rw [hcc]
    simp [Kind.isField]
  -- component
  · simp only [Kind.plainField, Bool.false_eq_true, if_false, underChild_name hg]
    rw [hch (· == .sink) (hnm _ rfl), hch (· == .source) (hnm _ rfl),
      hch (· == .entryPoint) (hnm _ rfl), hch (· == .operation) (hnm _ rfl),
      hch (· == .property) (hnm _ rfl), hch (· == .failure) (hnm _ rfl),
      hch (· == .component) (hnm _ rfl),
      hch Kind.isField (by intro k; cases k <;> decide)]
    rcases hckk : c.kind with _ | _ | _ | _ | _ | _ | _ | _ | _ | _ | _ | _ | _ | _ | _ <;>
      rw [hckk] at hal hk hd <;> simp_all [Kind.named, Kind.isField]
  -- operation
  · simp at hal; rw [hal] at hk; simp [Kind.named] at hk
  -- structure
  · rw [if_pos hal, hch Kind.isField (by intro k; cases k <;> decide)]
    have : c.kind.isField = true := by
      revert hal; cases c.kind <;> simp [Kind.plainField, Kind.isField]
    simp [this, Kind.plainField]
  -- array
  · rw [if_pos hal, hT.items a n hn hnk i c hc]
    have hlt : i < n.children.length := (List.getElem?_eq_some_iff.mp hc).1
    rw [arrayIndex_item i _ hlt (hT.size a n hn)]
    simp [Kind.isArray, Kind.plainField]
  -- anonymous array
  · exact absurd hnk han

/-! ### The path of an object -/

/-- The segments of the path of an object. -/
def pathSegs (T : Node) : Addr → List Seg
  | [] => []
  | i :: p =>
    pathSegs T p ++
      [(decide (p ≠ [] ∧ kindAt T (i :: p) ≠ some .component ∧
          ((kindAt T p).map Kind.isArray) ≠ some true), nameAt T (i :: p))]

theorem NotInAnonymousArray.parent {T : Node} {i : Nat} {p : Addr}
    (h : NotInAnonymousArray T (i :: p)) : NotInAnonymousArray T p :=
  fun j q hq => h j q (hq.trans (List.suffix_cons i p))

theorem scope_eq {T : Node} {a : Addr} (h : kindAt T a ≠ some .anonArray) :
    scope T a = a := by
  cases a with
  | nil => rfl
  | cons i p => simp [scope, h]

theorem paths_snd {T : Node} {a : Addr} (h : kindAt T a ≠ some .anonArray) :
    (paths T a).2 = getPath T a := by
  cases a with
  | nil => rfl
  | cons i p => simp only [getPath, paths, if_neg h]

theorem getPath_cons {T : Node} {i : Nat} {p : Addr} (h : kindAt T p ≠ some .anonArray) :
    getPath T (i :: p) =
      if p = [] then getPath T p ++ nameAt T (i :: p)
      else if kindAt T (i :: p) = some .component then
        getPath T p ++ '/' :: nameAt T (i :: p)
      else if ((kindAt T p).map Kind.isArray) = some true then
        getPath T p ++ nameAt T (i :: p)
      else getPath T p ++ '.' :: nameAt T (i :: p) := by
  conv => lhs; unfold getPath
  simp only [paths, scope_eq h, paths_snd h]

theorem get_parent {T : Node} {i : Nat} {p : Addr} {c : Node} (h : get T (i :: p) = some c) :
    ∃ n, get T p = some n ∧ n.children[i]? = some c := by
  simp only [get] at h
  cases hp : get T p with
  | none => simp [hp] at h
  | some n => exact ⟨n, rfl, by simpa [hp] using h⟩

theorem segments_getPath {T : Node} (hT : Wf T) (a : Addr) :
    ∀ (c : Node), get T a = some c → NotInAnonymousArray T a → a ≠ [] →
      ∀ r, Boundary r → segments (getPath T a ++ r) = pathSegs T a ++ segments r := by
  induction a with
  | nil => intro c _ _ h; exact absurd rfl h
  | cons i p ih =>
    intro c hc hna _ r hr
    obtain ⟨n, hn, hci⟩ := get_parent hc
    have hg := hT.names p n hn c (List.mem_of_getElem? hci)
    have hname : nameAt T (i :: p) = c.name := by simp [nameAt, hc]
    have hpa : kindAt T p ≠ some .anonArray := hna i p (List.suffix_refl _)
    rw [getPath_cons hpa]
    simp only [pathSegs, hname]
    obtain ⟨x, t, ht, hx1, hx2, hx3⟩ := hg.head
    by_cases hp : p = []
    · subst hp
      simp only [if_true, ne_eq, not_true_eq_false, false_and, decide_false, pathSegs]
      have : getPath T [] = ['/'] := rfl
      rw [this]
      exact segments_slash_name hg hr
    · rw [if_neg hp]
      by_cases hcomp : kindAt T (i :: p) = some .component
      · rw [if_pos hcomp, List.append_assoc, List.cons_append,
          ih n hn hna.parent hp _ (Or.inr (Or.inl ⟨_, rfl⟩)), segments_slash_name hg hr]
        simp [hcomp]
      · rw [if_neg hcomp]
        by_cases harr : ((kindAt T p).map Kind.isArray) = some true
        · have hnk : n.kind = .arrayField := by
            have h1 : kindAt T p = some n.kind := by simp [kindAt, hn]
            rw [h1] at harr hpa
            revert harr hpa
            cases n.kind <;> simp [Kind.isArray]
          have hit := hT.items p n hn hnk i c hci
          rw [if_pos harr, List.append_assoc,
            ih n hn hna.parent hp _
              (Or.inr (Or.inr (Or.inl ⟨_, by rw [hit, List.cons_append]⟩))),
            segments_name hg hr]
          simp [harr]
        · rw [if_neg harr, List.append_assoc, List.cons_append,
            ih n hn hna.parent hp _ (Or.inr (Or.inr (Or.inr ⟨_, rfl, by
              rw [ht]; simp [hx2]⟩))), segments_dot_name hg hr]
          simp [hp, hcomp, harr]

theorem resolve_pathSegs {T : Node} (hT : Wf T) (refs : Refs) (a : Addr) :
    ∀ (c : Node), get T a = some c → NotInAnonymousArray T a → c.kind.named = true →
      ∀ rest b, resolve T refs (stAt T a) a rest = some b →
        resolve T refs .obj [] (pathSegs T a ++ rest) = some b := by
  induction a with
  | nil =>
    intro c hc _ _ rest b h
    have : stAt T [] = .obj := by
      rw [stAt_of (n := T) rfl, hT.root]; rfl
    rw [this] at h
    exact h
  | cons i p ih =>
    intro c hc hna hk rest b h
    obtain ⟨n, hn, hci⟩ := get_parent hc
    have hpa : kindAt T p ≠ some .anonArray := hna i p (List.suffix_refl _)
    have hnk : n.kind ≠ .anonArray := by
      intro e; apply hpa; simp [kindAt, hn, e]
    have hname : nameAt T (i :: p) = c.name := by simp [nameAt, hc]
    have hkc : kindAt T (i :: p) = some c.kind := by simp [kindAt, hc]
    have hnn : n.kind.named = true := by
      have := hT.kinds p n hn c (List.mem_of_getElem? hci)
      revert this
      cases n.kind <;> simp [allowed, Kind.named]
    simp only [pathSegs, hname, List.append_assoc, List.singleton_append]
    apply ih n hn hna.parent hnn
    refine resolve_child hT refs hn hci hk hnk _ ?_ h
    intro e
    simp [hkc, e]

/-! ### Results are reached by walking -/

/-- The referenced objects are components. -/
def RefsOk (T : Node) (refs : Refs) : Prop :=
  ∀ a b, b ∈ refs a → kindAt T b = some .component

theorem cands_walk {T : Node} (hT : Wf T) (refs : Refs) (hr : RefsOk T refs)
    (hf : ∀ a, kindAt T a ≠ some .failure)
    {a : Addr} {d : Bool} {s : Str} (hs : s ≠ ['.', '.'])
    {x : St × Addr} (hx : x ∈ cands T refs (stAt T a) a d s) :
    x.1 = stAt T x.2 ∧ Step T refs a s x.2 := by
  unfold cands at hx
  rw [if_neg hs] at hx
  cases hn : get T a with
  | none => simp [hn] at hx
  | some n =>
    rw [stAt_of hn] at hx
    simp only [hn] at hx
    have ofChild : ∀ {ok : Kind → Bool} {i : Nat}, child n ok s = some i →
        (∀ k, ok k = true → k.named = true) →
        Step T refs a s (i :: a) ∧ ∃ c, get T (i :: a) = some c ∧ ok c.kind = true := by
      intro ok i h hok
      obtain ⟨c, hc, hk, hname⟩ := child_some h
      exact ⟨.child hn hc (hok _ hk) hname, c, by rw [get_cons hn, hc], hk⟩
    have plainOf : ∀ {c : Node} {b : Addr}, get T b = some c → c.kind.isField = true →
        c.kind.plainField = true := by
      intro c b hb hk
      have := hf b
      simp only [kindAt, hb, Option.map_some, ne_eq, Option.some.injEq] at this
      revert hk this
      cases c.kind <;> simp [Kind.isField, Kind.plainField]
    by_cases hpf : n.kind.plainField = true
    · rw [if_pos hpf] at hx
      simp only at hx
      split at hx
      · split at hx
        · rename_i i hi
          simp at hx; subst hx
          obtain ⟨h1, c, hc, hk⟩ := ofChild hi (by intro k; cases k <;> decide)
          refine ⟨?_, h1⟩
          rw [stAt_of hc, if_pos (plainOf hc hk)]
        · simp at hx
      · split at hx
        · rename_i harr
          split at hx
          · rename_i i hi
            simp at hx; subst hx
            have hlt : i < n.children.length := by
              unfold arrayIndex at hi
              repeat' split at hi
              all_goals first | (simp at hi; done) | (simp at hi; omega)
            refine ⟨?_, .item hn harr ((arrayIndex_iff _ _ _ (hT.size a n hn)).1 hi)⟩
            have hci : get T (i :: a) = some n.children[i] := by
              rw [get_cons hn]; simp [hlt]
            have := hT.kinds a n hn _ (List.getElem_mem hlt)
            have hcp : (n.children[i]).kind.plainField = true := by
              revert this harr
              cases n.kind <;> simp [Kind.isArray, allowed]
            rw [stAt_of hci, if_pos hcp]
          · simp at hx
        · simp at hx
    · rw [if_neg hpf] at hx
      simp only at hx
      have objOf : ∀ {k : Kind} {i : Nat}, child n (· == k) s = some i → k.named = true →
          k.plainField = false → St.obj = stAt T (i :: a) ∧ Step T refs a s (i :: a) := by
        intro k i h hk hp
        obtain ⟨h1, c, hc, hkc⟩ := ofChild h (by intro k' e; simp at e; rw [e]; exact hk)
        refine ⟨?_, h1⟩
        simp at hkc
        rw [stAt_of hc, hkc, hp]; rfl
      split at hx
      · -- "_"
        rename_i i hi
        simp at hx; subst hx
        unfold underChild at hi
        split at hi
        · rename_i s'
          have go : ∀ k : Kind, (k = .container ∨ k = .reference) →
              child n (· == k) s' = some i → St.obj = stAt T (i :: a) ∧
                Step T refs a ('_' :: s') (i :: a) := by
            intro k hk h
            obtain ⟨c, hc, hkc, hname⟩ := child_some h
            simp at hkc
            have hgc : get T (i :: a) = some c := by rw [get_cons hn, hc]
            refine ⟨?_, .under hn hc (by rw [hkc]; exact hk) (by rw [hname])⟩
            rw [stAt_of hgc, hkc]
            rcases hk with rfl | rfl <;> rfl
          split at hi
          · rename_i j hj
            cases hi
            exact go _ (Or.inl rfl) hj
          · exact go _ (Or.inr rfl) hi
        · simp at hi
      · rw [List.mem_append] at hx
        rcases hx with hx | hx
        · split at hx
          · rename_i i hi; simp at hx; subst hx; exact objOf hi rfl rfl
          · split at hx
            · rename_i i hi; simp at hx; subst hx; exact objOf hi rfl rfl
            · split at hx
              · rename_i i hi; simp at hx; subst hx; exact objOf hi rfl rfl
              · rw [List.mem_append] at hx
                rcases hx with hx | hx
                · split at hx
                  · rename_i i hi; simp at hx; subst hx; exact objOf hi rfl rfl
                  · split at hx
                    · rename_i i hi; simp at hx; subst hx; exact objOf hi rfl rfl
                    · simp at hx
                · split at hx
                  · rename_i i hi; simp at hx; subst hx; exact objOf hi rfl rfl
                  · split at hx
                    · split at hx
                      · rename_i i hi
                        simp at hx; subst hx
                        obtain ⟨h1, c, hc, hk⟩ := ofChild hi (by intro k; cases k <;> decide)
                        refine ⟨?_, h1⟩
                        rw [stAt_of hc, if_pos (plainOf hc hk)]
                      · simp at hx
                    · split at hx
                      · rename_i hkf
                        exact absurd (plainOf hn hkf) hpf
                      · simp at hx
        · split at hx
          · simp at hx
          · rw [List.mem_append] at hx
            rcases hx with hx | hx
            · split at hx
              · rename_i i hi; simp at hx; subst hx; exact objOf hi rfl rfl
              · simp at hx
            · split at hx
              · rename_i b hb
                simp at hx; subst hx
                unfold refNamed at hb
                have hm := List.mem_of_find?_eq_some hb
                have hnm := List.find?_some hb
                simp at hnm
                refine ⟨?_, .ref hm hnm⟩
                simp [stAt, hr a b hm, Kind.plainField]
              · simp at hx

theorem resolve_walk {T : Node} (hT : Wf T) (refs : Refs) (hr : RefsOk T refs)
    (hf : ∀ a, kindAt T a ≠ some .failure) (segs : List Seg)
    (hs : ∀ x ∈ segs, x.2 ≠ ['.', '.']) :
    ∀ a b, resolve T refs (stAt T a) a segs = some b → Walk T refs a segs b := by
  induction segs with
  | nil => intro a b h; simp [resolve] at h; subst h; exact .done a
  | cons x rest ih =>
    intro a b h
    obtain ⟨d, s⟩ := x
    rw [resolve_cons] at h
    obtain ⟨y, hy, hres⟩ := List.exists_of_findSome?_eq_some h
    obtain ⟨h1, h2⟩ := cands_walk hT refs hr hf (hs (d, s) (by simp)) hy
    rw [h1] at hres
    exact .step h2 (ih (fun x hx => hs x (by simp [hx])) _ _ hres)

/-- Whatever the object is known as: the next object is a step away, or it is the same one, a field
known as an object, whose segment is lost. -/
theorem cands_way {T : Node} (hT : Wf T) (refs : Refs) (hr : RefsOk T refs)
    {st : St} {a : Addr} {d : Bool} {s : Str} (hs : s ≠ ['.', '.'])
    {x : St × Addr} (hx : x ∈ cands T refs st a d s) :
    (x.1 = stAt T x.2 ∧ Step T refs a s x.2) ∨
      (st = .obj ∧ (∃ k, kindAt T a = some k ∧ k.isField = true) ∧ x = (.field, a)) := by
  unfold cands at hx
  rw [if_neg hs] at hx
  cases hn : get T a with
  | none => simp [hn] at hx
  | some n =>
    simp only [hn] at hx
    have ofChild : ∀ {ok : Kind → Bool} {i : Nat}, child n ok s = some i →
        (∀ k, ok k = true → k.named = true) →
        Step T refs a s (i :: a) ∧ ∃ c, get T (i :: a) = some c ∧ ok c.kind = true := by
      intro ok i h hok
      obtain ⟨c, hc, hk, hname⟩ := child_some h
      exact ⟨.child hn hc (hok _ hk) hname, c, by rw [get_cons hn, hc], hk⟩
    cases st with
    | field =>
      left
      simp only at hx
      split at hx
      · rename_i hst
        split at hx
        · rename_i i hi
          simp at hx; subst hx
          obtain ⟨h1, c, hc, hk⟩ := ofChild hi (by intro k; cases k <;> decide)
          refine ⟨?_, h1⟩
          have hal := hT.kinds a n hn c (by
            rw [get_cons hn] at hc; exact List.mem_of_getElem? hc)
          rw [hst] at hal
          rw [stAt_of hc, if_pos (by simpa [allowed] using hal)]
        · simp at hx
      · split at hx
        · rename_i harr
          split at hx
          · rename_i i hi
            simp at hx; subst hx
            have hlt : i < n.children.length := by
              unfold arrayIndex at hi
              repeat' split at hi
              all_goals first | (simp at hi; done) | (simp at hi; omega)
            refine ⟨?_, .item hn harr ((arrayIndex_iff _ _ _ (hT.size a n hn)).1 hi)⟩
            have hci : get T (i :: a) = some n.children[i] := by
              rw [get_cons hn]; simp [hlt]
            have := hT.kinds a n hn _ (List.getElem_mem hlt)
            have hcp : (n.children[i]).kind.plainField = true := by
              revert this harr
              cases n.kind <;> simp [Kind.isArray, allowed]
            rw [stAt_of hci, if_pos hcp]
          · simp at hx
        · simp at hx
    | obj =>
      simp only at hx
      have objOf : ∀ {k : Kind} {i : Nat}, child n (· == k) s = some i → k.named = true →
          k.plainField = false → (St.obj = stAt T (i :: a) ∧ Step T refs a s (i :: a)) ∨
            (St.obj = .obj ∧ (∃ k, kindAt T a = some k ∧ k.isField = true) ∧
              (St.obj, i :: a) = (.field, a)) := by
        intro k i h hk hp
        left
        obtain ⟨h1, c, hc, hkc⟩ := ofChild h (by intro k' e; simp at e; rw [e]; exact hk)
        refine ⟨?_, h1⟩
        simp at hkc
        rw [stAt_of hc, hkc, hp]; rfl
      split at hx
      · -- "_"
        rename_i i hi
        simp at hx; subst hx
        left
        unfold underChild at hi
        split at hi
        · rename_i s'
          have go : ∀ k : Kind, (k = .container ∨ k = .reference) →
              child n (· == k) s' = some i → St.obj = stAt T (i :: a) ∧
                Step T refs a ('_' :: s') (i :: a) := by
            intro k hk h
            obtain ⟨c, hc, hkc, hname⟩ := child_some h
            simp at hkc
            have hgc : get T (i :: a) = some c := by rw [get_cons hn, hc]
            refine ⟨?_, .under hn hc (by rw [hkc]; exact hk) (by rw [hname])⟩
            rw [stAt_of hgc, hkc]
            rcases hk with rfl | rfl <;> rfl
          split at hi
          · rename_i j hj
            cases hi
            exact go _ (Or.inl rfl) hj
          · exact go _ (Or.inr rfl) hi
        · simp at hi
      · rw [List.mem_append] at hx
        rcases hx with hx | hx
        · split at hx
          · rename_i i hi; simp at hx; subst hx; exact objOf hi rfl rfl
          · split at hx
            · rename_i i hi; simp at hx; subst hx; exact objOf hi rfl rfl
            · split at hx
              · rename_i i hi; simp at hx; subst hx; exact objOf hi rfl rfl
              · rw [List.mem_append] at hx
                rcases hx with hx | hx
                · split at hx
                  · rename_i i hi; simp at hx; subst hx; exact objOf hi rfl rfl
                  · split at hx
                    · rename_i i hi; simp at hx; subst hx; exact objOf hi rfl rfl
                    · simp at hx
                · split at hx
                  · rename_i i hi; simp at hx; subst hx; exact objOf hi rfl rfl
                  · split at hx
                    · split at hx
                      · rename_i hnf _ _ i hi
                        simp at hx; subst hx
                        obtain ⟨h1, c, hc, hk⟩ := ofChild hi (by intro k; cases k <;> decide)
                        left
                        refine ⟨?_, h1⟩
                        obtain ⟨c', hc', _, hname⟩ := child_some hi
                        have hcc : c' = c := by
                          rw [get_cons hn, hc'] at hc
                          exact Option.some.inj hc
                        subst hcc
                        have hnot : c'.kind ≠ .failure := fun hfk =>
                          child_none hnf hc' (by simp [hfk]) hname
                        rw [stAt_of hc, if_pos (by
                          revert hk hnot
                          cases c'.kind <;> simp [Kind.isField, Kind.plainField])]
                      · simp at hx
                    · split at hx
                      · rename_i hkf
                        simp at hx; subst hx
                        exact .inr ⟨rfl, ⟨n.kind, by simp [kindAt, hn], hkf⟩, rfl⟩
                      · simp at hx
        · split at hx
          · simp at hx
          · rw [List.mem_append] at hx
            rcases hx with hx | hx
            · split at hx
              · rename_i i hi; simp at hx; subst hx; exact objOf hi rfl rfl
              · simp at hx
            · split at hx
              · rename_i b hb
                simp at hx; subst hx
                unfold refNamed at hb
                have hm := List.mem_of_find?_eq_some hb
                have hnm := List.find?_some hb
                simp at hnm
                left
                refine ⟨?_, .ref hm hnm⟩
                simp [stAt, hr a b hm, Kind.plainField]
              · simp at hx

theorem resolve_way {T : Node} (hT : Wf T) (refs : Refs) (hr : RefsOk T refs) (segs : List Seg) :
    ∀ st a b, resolve T refs st a segs = some b → Way T refs (st == .field) a segs b := by
  induction segs with
  | nil => intro st a b h; simp [resolve] at h; subst h; exact .done _ a
  | cons x rest ih =>
    intro st a b h
    obtain ⟨d, s⟩ := x
    by_cases hs : s = ['.', '.']
    · subst hs
      rw [resolve] at h
      simp only [if_true] at h
      cases hp : parent T a with
      | none => rw [hp] at h; cases h
      | some p =>
        rw [hp] at h
        exact .up hp (ih .obj p b h)
    · rw [resolve_cons] at h
      obtain ⟨y, hy, hres⟩ := List.exists_of_findSome?_eq_some h
      rcases cands_way hT refs hr hs hy with ⟨h1, h2⟩ | ⟨rfl, hk, rfl⟩
      · rw [h1] at hres
        have := ih _ _ _ hres
        refine .step hs h2 ?_
        have e : (stAt T y.2 == St.field) = ((kindAt T y.2).map Kind.plainField == some true) := by
          unfold stAt
          cases h : ((kindAt T y.2).map Kind.plainField) with
          | none => rfl
          | some q => cases q <;> rfl
        rw [← e]
        exact this
      · exact .lost hs hk (ih _ _ _ hres)

/-! ### Concatenation -/

/-- A path with no result has none when continued. -/
theorem resolve_none_append (T : Node) (refs : Refs) (s1 s2 : List Seg) :
    ∀ st a, resolve T refs st a s1 = none → resolve T refs st a (s1 ++ s2) = none := by
  induction s1 with
  | nil => intro st a h; simp [resolve] at h
  | cons x rest ih =>
    intro st a h
    obtain ⟨d, s⟩ := x
    rw [List.cons_append, resolve_cons]
    rw [resolve_cons] at h
    rw [List.findSome?_eq_none_iff] at h ⊢
    intro y hy
    exact ih _ _ (h y hy)

/-- After a path, `..` goes on with the parent of the result. -/
theorem resolve_dots (T : Node) (refs : Refs) (s1 s2 : List Seg) (d : Bool) :
    ∀ st a b p c, resolve T refs st a s1 = some b → parent T b = some p →
      resolve T refs .obj p s2 = some c →
      resolve T refs st a (s1 ++ (d, ['.', '.']) :: s2) = some c := by
  induction s1 with
  | nil =>
    intro st a b p c h hp hc
    simp [resolve] at h; subst h
    simp only [List.nil_append, resolve, if_true, hp, hc]
  | cons x rest ih =>
    intro st a b p c h hp hc
    obtain ⟨d', s⟩ := x
    rw [List.cons_append, resolve_cons]
    rw [resolve_cons] at h
    generalize cands T refs st a d' s = l at h ⊢
    induction l with
    | nil => simp at h
    | cons y l ihl =>
      rw [List.findSome?_cons] at h ⊢
      cases hy : resolve T refs y.1 y.2 rest with
      | none =>
        rw [hy] at h
        rw [resolve_none_append _ _ _ _ _ _ hy]
        exact ihl h
      | some b' =>
        rw [hy] at h; cases h
        rw [ih _ _ _ _ _ hy hp hc]

end Verif.Path
