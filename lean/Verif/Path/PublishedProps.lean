import Verif.Path.Published
import Verif.Path.Props

/-! Property C164: fields of a component found by their path. -/
namespace Verif.Path.Published

/-! ### Specification -/

/-- There is a field at this address. -/
def IsField (T : Node) (b : Addr) : Prop := ∃ k, kindAt T b = some k ∧ k.isField = true

/-- The object at `p ++ a` is a field of the component at `a`: it and all objects between them are
fields. -/
def FieldOf (T : Node) (a p : Addr) : Prop :=
  p ≠ [] ∧ ∀ q, q ≠ [] → q <:+ p → IsField T (q ++ a)

/-! ### Lemmas -/

theorem FieldOf.parent {T : Node} {a q : Addr} {i : Nat} (h : FieldOf T a (i :: q)) (hq : q ≠ []) :
    FieldOf T a q :=
  ⟨hq, fun r hr hs => h.2 r hr (hs.trans (List.suffix_cons i q))⟩

theorem isField_get {T : Node} {b : Addr} (h : IsField T b) :
    ∃ c, get T b = some c ∧ c.kind.isField = true := by
  obtain ⟨k, hk, hf⟩ := h
  unfold kindAt at hk
  cases hg : get T b with
  | none => simp [hg] at hk
  | some c => simp [hg] at hk; exact ⟨c, rfl, hk ▸ hf⟩

theorem field_key {T : Node} (hT : Wf T) (refs : Refs) {a : Addr} (ha : kindAt T a = some .component) :
    ∀ p, FieldOf T a p → NotInAnonymousArray T (p ++ a) →
      ∃ rel segs, getPath T (p ++ a) = getPath T a ++ '.' :: rel ∧
        (∀ r, Boundary r → segments (rel ++ r) = segs ++ segments r) ∧
        ∀ rest b, resolve T refs .field (p ++ a) rest = some b →
          resolveFields T refs a (segs ++ rest) = some b := by
  have ha0 : a ≠ [] := by
    rintro rfl
    have : kindAt T [] = some T.kind := rfl
    rw [this, hT.root] at ha
    cases ha
  intro p
  induction p with
  | nil => intro h; exact absurd rfl h.1
  | cons i q ih =>
    intro h hna
    obtain ⟨c, hc, hcf⟩ := isField_get (h.2 (i :: q) (by simp) (List.suffix_refl _))
    rw [List.cons_append] at hc hna ⊢
    obtain ⟨n, hn, hci⟩ := get_parent hc
    have hg := hT.names _ n hn c (List.mem_of_getElem? hci)
    have hal := hT.kinds _ n hn c (List.mem_of_getElem? hci)
    have hname : nameAt T (i :: (q ++ a)) = c.name := by simp [nameAt, hc]
    have hpa : kindAt T (q ++ a) ≠ some .anonArray := hna i _ (List.suffix_refl _)
    have hkn : kindAt T (q ++ a) = some n.kind := by simp [kindAt, hn]
    have hkc : kindAt T (i :: (q ++ a)) = some c.kind := by simp [kindAt, hc]
    have hcn : c.kind.named = true := by
      revert hcf; cases c.kind <;> simp [Kind.isField, Kind.named]
    have hcc : kindAt T (i :: (q ++ a)) ≠ some .component := by
      rw [hkc]; intro e; cases e' : c.kind <;> rw [e'] at e hcf <;> simp_all [Kind.isField]
    have hne : q ++ a ≠ [] := by simp [ha0]
    rw [getPath_cons hpa, if_neg hne, if_neg hcc, hname]
    by_cases hq : q = []
    · subst hq
      rw [List.nil_append] at *
      have hnk : n.kind = .component := by rw [ha] at hkn; exact (Option.some.inj hkn).symm
      refine ⟨c.name, [(false, c.name)], ?_, fun r hr => segments_name hg hr, fun rest b hb => ?_⟩
      · rw [hkn, hnk, if_neg (by simp [Kind.isArray])]
      · simp only [List.singleton_append, resolveFields, hn]
        rw [if_neg hg.ne_dots, child_eq hT hn hci hcn (by intro k; cases k <;> decide), hcf]
        exact hb
    · obtain ⟨rel, segs, e1, e2, e3⟩ := ih (h.parent hq) hna.parent
      obtain ⟨n', hn', hnf⟩ := isField_get ((h.parent hq).2 q hq (List.suffix_refl _))
      rw [hn] at hn'
      obtain rfl := Option.some.inj hn'
      rw [hkn] at hpa
      have hcp : c.kind.plainField = true ∧ n.kind.plainField = true := by
        revert hal hnf; cases n.kind <;> simp [allowed, Kind.isField, Kind.plainField]
      have s1 : stAt T (q ++ a) = .field := by rw [stAt_of hn, if_pos hcp.2]
      have s2 : stAt T (i :: (q ++ a)) = .field := by rw [stAt_of hc, if_pos hcp.1]
      have step : ∀ d rest b, resolve T refs .field (i :: (q ++ a)) rest = some b →
          resolve T refs .field (q ++ a) ((d, c.name) :: rest) = some b := by
        intro d rest b hb
        rw [← s1]
        refine resolve_child hT refs hn hci hcn (fun e => hpa (by rw [e])) d ?_ (by rw [s2]; exact hb)
        intro e; rw [e] at hcf; simp [Kind.isField] at hcf
      obtain ⟨x, t, ht, hx1, hx2, hx3⟩ := hg.head
      by_cases harr : n.kind.isArray = true
      · have hnk : n.kind = .arrayField := by
          revert harr hpa; cases n.kind <;> simp [Kind.isArray]
        have hit := hT.items _ n hn hnk i c hci
        refine ⟨rel ++ c.name, segs ++ [(false, c.name)], ?_, fun r hr => ?_, fun rest b hb => ?_⟩
        · rw [hkn, if_pos (by simp [harr]), e1]; simp
        · rw [List.append_assoc, e2 _ (Or.inr (Or.inr (Or.inl ⟨_, by rw [hit, List.cons_append]⟩))),
            segments_name hg hr]
          simp
        · rw [List.append_assoc]; exact e3 _ _ (step _ _ _ hb)
      · refine ⟨rel ++ '.' :: c.name, segs ++ [(true, c.name)], ?_, fun r hr => ?_, fun rest b hb => ?_⟩
        · rw [hkn, if_neg (by simpa using harr), e1]; simp
        · rw [List.append_assoc, List.cons_append, e2 _ (Or.inr (Or.inr (Or.inr ⟨_, rfl, by
              rw [ht]; simp [hx2]⟩))), segments_dot_name hg hr]
          simp
        · rw [List.append_assoc]; exact e3 _ _ (step _ _ _ hb)

theorem item_grammar (i : Nat) : Grammar ('[' :: (Nat.toDigits 10 i ++ [']'])) :=
  Or.inr ⟨_, rfl, by simp, toDigits_isDigit i⟩

theorem reach_key {T : Node} (hT : Wf T) (refs : Refs) {a : Addr} :
    ∀ p, FieldOf T a p → ∃ rel segs, (∀ r, Boundary r → segments (rel ++ r) = segs ++ segments r) ∧
        (∀ x ∈ segs, x.2 ≠ dots) ∧
        ∀ rest b, resolve T refs .field (p ++ a) rest = some b →
          resolveFields T refs a (segs ++ rest) = some b := by
  intro p
  induction p with
  | nil => intro h; exact absurd rfl h.1
  | cons i q ih =>
    intro h
    obtain ⟨c, hc, hcf⟩ := isField_get (h.2 (i :: q) (by simp) (List.suffix_refl _))
    rw [List.cons_append] at hc ⊢
    obtain ⟨n, hn, hci⟩ := get_parent hc
    have hg := hT.names _ n hn c (List.mem_of_getElem? hci)
    have hal := hT.kinds _ n hn c (List.mem_of_getElem? hci)
    have hcn : c.kind.named = true := by
      revert hcf; cases c.kind <;> simp [Kind.isField, Kind.named]
    by_cases hq : q = []
    · subst hq
      rw [List.nil_append] at *
      refine ⟨c.name, [(false, c.name)], fun r hr => segments_name hg hr, ?_, fun rest b hb => ?_⟩
      · intro x hx; rw [List.mem_singleton.1 hx]; exact hg.ne_dots
      · simp only [List.singleton_append, resolveFields, hn]
        rw [if_neg hg.ne_dots, child_eq hT hn hci hcn (by intro k; cases k <;> decide), hcf]
        exact hb
    · obtain ⟨rel, segs, e2, e4, e3⟩ := ih (h.parent hq)
      obtain ⟨n', hn', hnf⟩ := isField_get ((h.parent hq).2 q hq (List.suffix_refl _))
      rw [hn] at hn'
      obtain rfl := Option.some.inj hn'
      have hcp : c.kind.plainField = true ∧ n.kind.plainField = true := by
        revert hal hnf; cases n.kind <;> simp [allowed, Kind.isField, Kind.plainField]
      by_cases harr : n.kind.isArray = true
      · have hgi := item_grammar i
        have hi : i < n.children.length := (List.getElem?_eq_some_iff.mp hci).1
        refine ⟨rel ++ '[' :: (Nat.toDigits 10 i ++ [']']),
          segs ++ [(false, '[' :: (Nat.toDigits 10 i ++ [']']))], fun r hr => ?_, ?_, fun rest b hb => ?_⟩
        · rw [List.append_assoc, e2 _ (Or.inr (Or.inr (Or.inl ⟨_, by rw [List.cons_append]⟩))),
            segments_name hgi hr]
          simp
        · intro x hx
          rcases List.mem_append.1 hx with hx | hx
          · exact e4 x hx
          · rw [List.mem_singleton.1 hx]; exact hgi.ne_dots
        · rw [List.append_assoc]
          refine e3 _ _ ?_
          rw [List.singleton_append, resolve, if_neg hgi.ne_dots, hn]
          simp only
          have hns : n.kind ≠ .structField := by
            intro e; rw [e] at harr; simp [Kind.isArray] at harr
          rw [if_neg hns, if_pos harr, arrayIndex_item i _ hi (hT.size _ n hn)]
          exact hb
      · have hnk : n.kind = .structField := by
          have h2 := hcp.2
          revert harr hal h2; cases n.kind <;> simp [Kind.isArray, allowed, Kind.plainField]
        obtain ⟨x, t, ht, hx1, hx2, hx3⟩ := hg.head
        refine ⟨rel ++ '.' :: c.name, segs ++ [(true, c.name)], fun r hr => ?_, ?_, fun rest b hb => ?_⟩
        · rw [List.append_assoc, List.cons_append, e2 _ (Or.inr (Or.inr (Or.inr ⟨_, rfl, by
              rw [ht]; simp [hx2]⟩))), segments_dot_name hg hr]
          simp
        · intro x hx
          rcases List.mem_append.1 hx with hx | hx
          · exact e4 x hx
          · rw [List.mem_singleton.1 hx]; exact hg.ne_dots
        · rw [List.append_assoc]
          refine e3 _ _ ?_
          rw [List.singleton_append, resolve, if_neg hg.ne_dots, hn]
          simp only
          rw [if_pos hnk, child_eq hT hn hci hcn (by intro k; cases k <;> decide), hcf]
          exact hb

/-- Without `..`, a field leads to itself and to fields below it. -/
theorem resolve_below {T : Node} (hT : Wf T) (refs : Refs) : ∀ (segs : List Seg) (a p b : Addr),
    (∀ x ∈ segs, x.2 ≠ dots) → FieldOf T a p → resolve T refs .field (p ++ a) segs = some b →
    ∃ p', b = p' ++ a ∧ FieldOf T a p' := by
  intro segs
  induction segs with
  | nil => intro a p b _ hp h; simp only [resolve] at h; exact ⟨p, (Option.some.inj h).symm, hp⟩
  | cons x segs ih =>
    intro a p b hs hp h
    obtain ⟨d, s⟩ := x
    have hsd : s ≠ ['.', '.'] := hs (d, s) (by simp)
    have next : ∀ i n c, get T (p ++ a) = some n → n.children[i]? = some c → c.kind.isField = true →
        FieldOf T a (i :: p) := by
      intro i n c hn hc hf
      refine ⟨by simp, fun q hq hsuf => ?_⟩
      rcases List.suffix_cons_iff.1 hsuf with rfl | hsuf
      · refine ⟨c.kind, ?_, hf⟩
        rw [List.cons_append, kindAt, get_cons hn, hc]; rfl
      · exact hp.2 q hq hsuf
    have rec' : ∀ i, FieldOf T a (i :: p) → resolve T refs .field (i :: (p ++ a)) segs = some b →
        ∃ p', b = p' ++ a ∧ FieldOf T a p' :=
      fun i hi hr => ih a (i :: p) b (fun x hx => hs x (List.mem_cons_of_mem _ hx)) hi hr
    rw [resolve, if_neg hsd] at h
    cases hn : get T (p ++ a) with
    | none => rw [hn] at h; cases h
    | some n =>
      rw [hn] at h
      simp only at h
      by_cases h1 : n.kind = .structField
      · rw [if_pos h1] at h
        cases hc : child n Kind.isField s with
        | none => rw [hc] at h; cases h
        | some i =>
          rw [hc] at h
          obtain ⟨c, hc1, hc2, _⟩ := child_some hc
          exact rec' i (next i n c hn hc1 hc2) h
      · rw [if_neg h1] at h
        by_cases h2 : n.kind.isArray = true
        · rw [if_pos h2] at h
          cases hx : arrayIndex s n.children.length with
          | none => rw [hx] at h; cases h
          | some i =>
            rw [hx] at h
            have hi : i < n.children.length := by
              obtain ⟨_, _, _, _, _, _, _, hi, _⟩ := (arrayIndex_iff _ _ _ (hT.size _ n hn)).1 hx
              exact hi
            have hc : n.children[i]? = some n.children[i] := List.getElem?_eq_getElem hi
            have hk := hT.kinds _ n hn _ (List.mem_of_getElem? hc)
            refine rec' i (next i n _ hn hc ?_) h
            revert hk h2
            cases n.kind <;> simp [Kind.isArray, allowed] <;>
              cases n.children[i].kind <;> simp [Kind.plainField, Kind.isField]
        · rw [if_neg h2] at h; cases h

/-! ### Property C164 -/

/-- C164. A field of a component, at any depth but not below an array made by
`IPublication::PublishArray`, has a path that consists of the one of the component, a dot and the rest,
and `GetField` of the component with the rest gives this field. -/
theorem C164_found_partial (T : Node) (hT : Wf T) (refs : Refs) (a p : Addr)
    (ha : kindAt T a = some .component) (hp : FieldOf T a p) (hna : NotInAnonymousArray T (p ++ a)) :
    (∃ rel, getPath T (p ++ a) = getPath T a ++ '.' :: rel) ∧
    ∀ rel, getPath T (p ++ a) = getPath T a ++ '.' :: rel → getField T refs a (some rel) = some (p ++ a) := by
  obtain ⟨rel, segs, e1, e2, e3⟩ := field_key hT refs ha p hp hna
  refine ⟨⟨rel, e1⟩, fun rel' h => ?_⟩
  rw [e1] at h
  obtain rfl : rel = rel' := by simpa using h
  have hs := e2 [] (Or.inl rfl)
  rw [List.append_nil] at hs
  obtain ⟨k, hk, hf⟩ := hp.2 p hp.1 (List.suffix_refl _)
  have h0 : segments [] = [] := by decide
  simp only [getField, hs, h0]
  rw [e3 [] (p ++ a) (by simp [resolve])]
  simp [hk, hf]

/-- The field `t[1]` of the structure `s` of `A`. -/
example : kindAt (sample []) [0] = some .component ∧ FieldOf (sample []) [0] [1, 0, 1] ∧
    NotInAnonymousArray (sample []) ([1, 0, 1] ++ [0]) ∧
    getPath (sample []) ([1, 0, 1] ++ [0]) = getPath (sample []) [0] ++ '.' :: "s.t[1]".toList ∧
    getField (sample []) noRefs [0] (some "s.t[1]".toList) = some [1, 0, 1, 0] ∧
    getField (sample []) noRefs [0] (some "s.t[-2]".toList) = some [0, 0, 1, 0] ∧
    getField (sample []) noRefs [0] (some "s.t[2]".toList) = none ∧
    getField (sample []) noRefs [0] (some "run".toList) = none := by
  refine ⟨rfl, ⟨by simp, fun q hq hs => ?_⟩, fun i p h => ?_, by decide +kernel, by decide +kernel,
    by decide +kernel, by decide +kernel, by decide +kernel⟩
  · simp only [List.suffix_cons_iff, List.suffix_nil] at hs
    rcases hs with rfl | rfl | rfl | rfl
    · exact ⟨.simpleField, rfl, rfl⟩
    · exact ⟨.arrayField, rfl, rfl⟩
    · exact ⟨.structField, rfl, rfl⟩
    · exact absurd rfl hq
  · simp only [List.cons_append, List.nil_append, List.suffix_cons_iff, List.suffix_nil,
      List.cons.injEq, reduceCtorEq, or_false] at h
    rcases h with ⟨_, rfl⟩ | ⟨_, rfl⟩ | ⟨_, rfl⟩ | ⟨_, rfl⟩ <;> decide +kernel

/-- C164 is false of the code for the items of an array made by `IPublication::PublishArray`: what follows
the path of the component does not lead to the item. -/
theorem C164_anonymous_fails : ∃ T a p rel, Wf T ∧ kindAt T a = some .component ∧ FieldOf T a p ∧
    getPath T (p ++ a) = getPath T a ++ '.' :: rel ∧ getField T noRefs a (some rel) = none := by
  refine ⟨sample [.mk .anonArray "arr".toList [.mk .simpleField "[0]".toList []]], [0], [0, 4],
    "[0]".toList, wf_of_ok rfl (by decide +kernel), rfl, ⟨by simp, fun q hq hs => ?_⟩,
    by decide +kernel, by decide +kernel⟩
  simp only [List.suffix_cons_iff, List.suffix_nil] at hs
  rcases hs with rfl | rfl | rfl
  · exact ⟨.simpleField, rfl, rfl⟩
  · exact ⟨.anonArray, rfl, rfl⟩
  · exact absurd rfl hq

/-- C164. All fields of a component, also those below arrays made by `IPublication::PublishArray`, are
given for some path without `..`. -/
theorem C164_reached (T : Node) (hT : Wf T) (refs : Refs) (a p : Addr) (hp : FieldOf T a p) :
    ∃ path, (∀ x ∈ segments path, x.2 ≠ dots) ∧ getField T refs a (some path) = some (p ++ a) := by
  obtain ⟨rel, segs, e2, e4, e3⟩ := reach_key hT refs p hp
  have hs := e2 [] (Or.inl rfl)
  have h0 : segments [] = [] := by decide
  rw [List.append_nil, h0, List.append_nil] at hs
  refine ⟨rel, by rw [hs]; exact e4, ?_⟩
  obtain ⟨k, hk, hf⟩ := hp.2 p hp.1 (List.suffix_refl _)
  have := e3 [] (p ++ a) (by simp [resolve])
  rw [List.append_nil] at this
  simp only [getField, hs]
  rw [this]
  simp [hk, hf]

example : getField (sample [.mk .anonArray "arr".toList [.mk .simpleField "[0]".toList []]]) noRefs [0]
    (some "arr[0]".toList) = some [0, 4, 0] := by decide +kernel

/-- C164. With a path without `..`, `GetField` gives nothing but fields of the component itself; with any
path it gives nothing but fields. -/
theorem C164_own (T : Node) (hT : Wf T) (refs : Refs) (a b : Addr) (path : Option Str)
    (h : getField T refs a path = some b) :
    IsField T b ∧
    ((∀ s, path = some s → ∀ x ∈ segments s, x.2 ≠ dots) → ∃ p, b = p ++ a ∧ FieldOf T a p) := by
  cases path with
  | none => cases h
  | some s =>
    simp only [getField] at h
    cases hr : resolveFields T refs a (segments s) with
    | none => rw [hr] at h; cases h
    | some b' =>
      rw [hr] at h
      simp only at h
      by_cases hf : (kindAt T b').map Kind.isField = some true
      · rw [if_pos hf] at h
        obtain rfl := Option.some.inj h
        refine ⟨?_, fun hd => ?_⟩
        · cases hk : kindAt T b' with
          | none => rw [hk] at hf; cases hf
          | some k => rw [hk] at hf; exact ⟨k, hk, by simpa using hf⟩
        · have hd := hd s rfl
          cases hs : segments s with
          | nil => rw [hs] at hr; cases hr
          | cons x rest =>
            obtain ⟨d, s'⟩ := x
            rw [hs] at hr hd
            have hsd : s' ≠ ['.', '.'] := hd (d, s') (by simp)
            simp only [resolveFields] at hr
            rw [if_neg hsd] at hr
            cases hn : get T a with
            | none => rw [hn] at hr; cases hr
            | some n =>
              rw [hn] at hr
              simp only at hr
              cases hc : child n Kind.isField s' with
              | none => rw [hc] at hr; cases hr
              | some i =>
                rw [hc] at hr
                obtain ⟨c, hc1, hc2, _⟩ := child_some hc
                refine resolve_below hT refs rest a [i] b'
                  (fun x hx => hd x (List.mem_cons_of_mem _ hx)) ⟨by simp, fun q hq hsuf => ?_⟩ hr
                rcases List.suffix_cons_iff.1 hsuf with rfl | hsuf
                · exact ⟨c.kind, by rw [List.cons_append, List.nil_append, kindAt, get_cons hn, hc1]; rfl, hc2⟩
                · exact absurd (List.suffix_nil.1 hsuf) hq
      · rw [if_neg hf] at h; cases h

/-- C164. With any path, the field that is given is reached from the component along the path: `..` leads to
the parent, another segment is a step to a child, an item or a referenced component, and one segment may be
lost at a field to which `..` has led. -/
theorem C164_way (T : Node) (hT : Wf T) (refs : Refs) (hr : RefsOk T refs) (a b : Addr) (path : Str)
    (h : getField T refs a (some path) = some b) : Way T refs false a (segments path) b := by
  have weaken : ∀ {k a r}, Way T refs k a r b → Way T refs false a r b := by
    intro k a r h
    cases h with
    | done => exact .done _ _
    | up hp h => exact .up hp h
    | step hs h1 h => exact .step hs h1 h
    | lost hs hk h => exact .lost hs hk h
  simp only [getField] at h
  cases hf : resolveFields T refs a (segments path) with
  | none => rw [hf] at h; cases h
  | some b' =>
    rw [hf] at h
    simp only at h
    obtain rfl : b' = b := by
      by_cases hk : (kindAt T b').map Kind.isField = some true
      · rw [if_pos hk] at h; exact Option.some.inj h
      · rw [if_neg hk] at h; cases h
    cases hs : segments path with
    | nil => rw [hs] at hf; cases hf
    | cons x rest =>
      obtain ⟨d, s⟩ := x
      rw [hs] at hf
      simp only [resolveFields] at hf
      by_cases hsd : s = ['.', '.']
      · rw [if_pos hsd] at hf
        cases hp : parent T a with
        | none => rw [hp] at hf; cases hf
        | some p =>
          rw [hp] at hf
          rw [hsd]
          exact .up hp (resolve_way hT refs hr rest .obj p b' hf)
      · rw [if_neg hsd] at hf
        cases hn : get T a with
        | none => rw [hn] at hf; cases hf
        | some n =>
          rw [hn] at hf
          simp only at hf
          cases hc : child n Kind.isField s with
          | none => rw [hc] at hf; cases hf
          | some i =>
            rw [hc] at hf
            obtain ⟨c, hc1, hc2, hc3⟩ := child_some hc
            have hnm : c.kind.named = true := by
              revert hc2; cases c.kind <;> simp [Kind.isField, Kind.named]
            refine .step hsd (.child hn hc1 hnm hc3) ?_
            have hw := resolve_way hT refs hr rest .field (i :: a) b' hf
            cases hq : ((kindAt T (i :: a)).map Kind.plainField == some true) with
            | false => exact weaken hw
            | true => exact hw

example : getField (sample []) noRefs [0] (some "s.b/../t[0]/../../../A.s".toList) = none ∧
    getField (sample []) noRefs [0] (some "s.b/../../s.b".toList) = some [1, 1, 0] := by decide +kernel

/-- C164. `..` at the beginning leaves the component: the rest is resolved from its parent, and any field
found there is given. -/
theorem C164_outside (T : Node) (refs : Refs) (a : Addr) (ys : Str) (b : Addr) :
    getField T refs a (some ('.' :: '.' :: '/' :: ys)) = some b ↔
      ∃ p, parent T a = some p ∧ Resolve T refs p ys = some b ∧ IsField T b := by
  have h : resolveFields T refs a (segments ('.' :: '.' :: '/' :: ys)) =
      match parent T a with
      | none => none
      | some p => Resolve T refs p ys := by
    rw [segments_dots_slash]
    simp only [resolveFields, dots, if_true]
    cases parent T a <;> rfl
  simp only [getField, h]
  cases parent T a with
  | none => simp
  | some p =>
    simp only [Option.some.injEq, exists_eq_left']
    cases Resolve T refs p ys with
    | none => simp
    | some b' =>
      simp only [Option.some.injEq]
      constructor
      · intro h
        by_cases hf : (kindAt T b').map Kind.isField = some true
        · rw [if_pos hf] at h
          obtain rfl := Option.some.inj h
          refine ⟨rfl, ?_⟩
          cases hk : kindAt T b' with
          | none => rw [hk] at hf; cases hf
          | some k => rw [hk] at hf; exact ⟨k, hk, by simpa using hf⟩
        · rw [if_neg hf] at h; cases h
      · rintro ⟨rfl, k, hk, hf⟩
        rw [if_pos (by rw [hk]; simp [hf])]

/-- C164 is false of the code for paths with `..`: a component without any field gives a field of another
component. -/
theorem C164_outside_fails : ∃ T a b path, Wf T ∧ kindAt T a = some .component ∧
    (∀ p, ¬ FieldOf T a p) ∧ getField T noRefs a (some path) = some b := by
  refine ⟨sample [], [1], [1, 1, 0], "../A/s.b".toList, sample_wf, rfl, fun p hp => ?_,
    by decide +kernel⟩
  obtain ⟨h0, h⟩ := hp
  obtain ⟨k, hk, _⟩ := h [p.getLast h0] (by simp) ⟨p.dropLast, List.dropLast_concat_getLast h0⟩
  simp [kindAt, get, sample, Node.children] at hk

end Verif.Path.Published
