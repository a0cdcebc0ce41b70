import Verif.Python.Call
import Verif.Pub.OperProps

/-!
C119: the call of an operation from Python binds its arguments as a Python function does, and its
result holds the outputs.
-/
namespace Verif.Python.Call

open Verif.Any (Kind Fl Any)
open Verif.Path (Str Grammar)
open Verif.Pub (Registry Req Oper Param IRes Pubn PCall getType kindOf isValid noValue prun initial)
open Verif.Python.Value (Py ofPy toPy)

/-! ## What Python does with arguments -/

/-- `p` is given for parameter `i`, by position or by name. -/
def Given (names : List Str) (args : List Py) (kwargs : List (Str × Py)) (i : Nat) (p : Py) : Prop :=
  args[i]? = some p ∨ ∃ n, names[i]? = some n ∧ (n, p) ∈ kwargs

/-- Python accepts the arguments of a function with these parameters, apart from missing ones: not more
positional arguments than parameters, and every keyword is the name of a parameter not given by position. -/
def Fit (names : List Str) (args : List Py) (kwargs : List (Str × Py)) : Prop :=
  args.length ≤ names.length ∧
    ∀ n p, (n, p) ∈ kwargs → ∃ i, names[i]? = some n ∧ args.length ≤ i

/-- The keyword arguments of a Python call: no name twice, and no U+0000 in a name. -/
def Keywords (kwargs : List (Str × Py)) : Prop :=
  (kwargs.map Prod.fst).Nodup ∧ ∀ n ∈ kwargs.map Prod.fst, Char.ofNat 0 ∉ n

/-- `v` is the value of `p` in the type of a parameter, and the type allows it. -/
def Accepts (R : Registry) (narrow : Fl → Fl) (par : Param) (p : Py) (v : Any) : Prop :=
  ofPy narrow p (kindOf R par.uuid) = .ok v ∧
    ∃ t, getType R par.uuid = some t ∧ isValid t v = .ok true

/-! ## Lemmas -/

theorem accepts_type {R : Registry} {narrow : Fl → Fl} {par : Param} {p : Py} {v : Any}
    (h : Accepts R narrow par p v) : v.type = kindOf R par.uuid := by
  obtain ⟨_, t, ht, hv⟩ := h
  unfold isValid at hv
  split at hv
  · cases hv
  · rename_i hk
    simp only [kindOf, ht, Option.map_some, Option.getD_some]
    exact (Classical.not_not.mp hk).symm

theorem cName_eq {n : Str} (h : Char.ofNat 0 ∉ n) : cName n = n := by
  unfold cName
  induction n with
  | nil => rfl
  | cons c cs ih =>
    have hc : c ≠ Char.ofNat 0 := fun e => h (by simp [e])
    rw [List.takeWhile_cons_of_pos (by simpa using hc), ih (fun h' => h (by simp [h']))]

/-- The parameters of an operation in the form of those of a request. -/
abbrev spec (o : Oper) : List (Str × Verif.Pub.Uuid) := o.params.map fun p => (p.name, p.uuid)

theorem of_set {ps : List (Str × Verif.Pub.Uuid)} {R : Registry} {r : Req} (h : r.Of ps) (i : Int) (v : Any) :
    (r.set R i v).1.Of ps := Verif.Pub.of_rstep (s := (R, r)) h (.set i v)

theorem of_setReturn {ps : List (Str × Verif.Pub.Uuid)} {R : Registry} {r : Req} (h : r.Of ps)
    (u : Option Verif.Pub.Uuid) (v : Any) : (r.setReturn R u v).1.Of ps :=
  Verif.Pub.of_rstep (s := (R, r)) h (.setReturn u v)

theorem value_type {o : Oper} {r : Req} (h : r.Of (spec o)) {i : Nat} {par : Param}
    (hp : o.params[i]? = some par) : ∃ w, r.values[i]? = some (w, par.uuid) := by
  have h1 := congrArg (fun l => l[i]?) h.types
  simp only [List.getElem?_map, hp, Option.map_some, Option.map_eq_some_iff] at h1
  obtain ⟨⟨w, u⟩, h2, rfl⟩ := h1
  exact ⟨w, h2⟩

theorem get_eq {r : Req} {i : Nat} {w : Any} {u : Verif.Pub.Uuid} (h : r.values[i]? = some (w, u)) :
    r.get i = some w := by
  obtain ⟨hl, _⟩ := List.getElem?_eq_some_iff.mp h
  unfold Req.get
  rw [if_neg (by simp; omega)]
  simp [h]

theorem values_length {o : Oper} {r : Req} (h : r.Of (spec o)) : r.values.length = o.params.length := by
  have := congrArg List.length h.types
  simpa using this

theorem put_ok {R : Registry} {narrow : Fl → Fl} {o : Oper} {r r' : Req} {i : Nat} {p : Py}
    (hof : r.Of (spec o)) (h : put R narrow o.params r i p = .ok r') :
    r'.Of (spec o) ∧ ∃ par v, o.params[i]? = some par ∧ Accepts R narrow par p v ∧
      r'.get i = some v ∧ ∀ j : Nat, j ≠ i → r'.get j = r.get j := by
  unfold put at h
  split at h
  · cases h
  · rename_i par hp
    split at h
    · cases h
    · rename_i v hv
      split at h
      · rename_i r2 hs
        injection h with h; subst h
        have hset := (Verif.Pub.C54_set R r i v).1 (by rw [hs])
        rw [hs] at hset
        have hof' := of_set (R := R) hof i v
        rw [hs] at hof'
        refine ⟨hof', par, v, hp, ?_, hset.1, fun j hj => hset.2.1 j (by omega)⟩
        refine ⟨?_, ?_⟩
        · unfold converted at hv
          split at hv
          · rename_i e; injection hv with hv; rw [e, hv]
          · cases hv
          · cases hv
        · obtain ⟨w, hw⟩ := value_type hof hp
          rcases Verif.Pub.set_cases R r i v with ⟨_, h2⟩ | ⟨k, hk, w', u, t, hvals, ht, hval, _⟩
          · rw [hs] at h2; exact absurd rfl h2
          · have : k = i := by omega
            subst this
            rw [hw] at hvals
            injection hvals with hvals; injection hvals with _ hu
            subst hu
            exact ⟨t, ht, hval⟩
      · cases h

theorem put_of {R : Registry} {narrow : Fl → Fl} {o : Oper} {r : Req} {i : Nat} {p : Py} {par : Param}
    {v : Any} (hof : r.Of (spec o)) (hp : o.params[i]? = some par) (ha : Accepts R narrow par p v) :
    ∃ r', put R narrow o.params r i p = .ok r' := by
  obtain ⟨hc, t, ht, hv⟩ := ha
  obtain ⟨w, hw⟩ := value_type hof hp
  obtain ⟨hl, _⟩ := List.getElem?_eq_some_iff.mp hw
  have hs : r.set R i v = ({ r with values := r.values.set i (v, par.uuid) }, .ok) := by
    unfold Req.set
    rw [if_neg (by simp; omega)]
    simp only [Int.toNat_natCast, hw, ht, hv]
  refine ⟨{ r with values := r.values.set i (v, par.uuid) }, ?_⟩
  unfold put
  rw [hp]
  dsimp only
  rw [hc]
  dsimp only [converted]
  rw [hs]

theorem positional_ok {R : Registry} {narrow : Fl → Fl} {o : Oper} (args : List Py) :
    ∀ (k : Nat) {r r' : Req}, r.Of (spec o) → positional R narrow o.params k args r = .ok r' →
      r'.Of (spec o) ∧
      (∀ (j : Nat) p, args[j]? = some p → ∃ par v, o.params[k + j]? = some par ∧ Accepts R narrow par p v ∧
        r'.get ((k + j : Nat) : Int) = some v) ∧
      ∀ i : Nat, i < k ∨ k + args.length ≤ i → r'.get i = r.get i := by
  induction args with
  | nil =>
    intro k r r' hof h
    injection h with h; subst h
    exact ⟨hof, by simp, fun _ _ => rfl⟩
  | cons a args ih =>
    intro k r r' hof h
    unfold positional at h
    split at h
    · cases h
    · rename_i r1 h1
      obtain ⟨hof1, par, v, hp, ha, hg, hother⟩ := put_ok hof h1
      obtain ⟨hof2, hargs, hrest⟩ := ih (k + 1) hof1 h
      refine ⟨hof2, ?_, ?_⟩
      · intro j p hj
        cases j with
        | zero =>
          simp at hj; subst hj
          exact ⟨par, v, hp, ha, by rw [hrest (k + 0) (by omega)]; exact hg⟩
        | succ j =>
          simp at hj
          obtain ⟨par', v', h1, h2, h3⟩ := hargs j p hj
          have e : k + 1 + j = k + (j + 1) := by omega
          rw [e] at h1 h3
          exact ⟨par', v', h1, h2, h3⟩
      · intro i hi
        simp only [List.length_cons] at hi
        rw [hrest i (by omega), hother i (by omega)]

theorem positional_of {R : Registry} {narrow : Fl → Fl} {o : Oper} (args : List Py) :
    ∀ (k : Nat) {r : Req}, r.Of (spec o) →
      (∀ (j : Nat) p, args[j]? = some p → ∃ par v, o.params[k + j]? = some par ∧ Accepts R narrow par p v) →
      ∃ r', positional R narrow o.params k args r = .ok r' := by
  induction args with
  | nil => intro k r _ _; exact ⟨r, rfl⟩
  | cons a args ih =>
    intro k r hof h
    obtain ⟨par, v, hp, ha⟩ := h 0 a rfl
    rw [Nat.add_zero] at hp
    obtain ⟨r1, h1⟩ := put_of hof hp ha
    obtain ⟨r2, h2⟩ := ih (k + 1) (put_ok hof h1).1 (fun j p hj => by
      have := h (j + 1) p (by simpa using hj)
      have e : k + 1 + j = k + (j + 1) := by omega
      rw [e]; exact this)
    exact ⟨r2, by unfold positional; rw [h1]; exact h2⟩

/-- The place of a name. -/
theorem index_spec {o : Oper} (hn : (o.params.map Param.name).Nodup) {r : Req} (hof : r.Of (spec o)) (n : Str) :
    (∀ i : Nat, (o.params.map Param.name)[i]? = some n → r.index (some n) = i) ∧
    (n ∉ o.params.map Param.name → r.index (some n) = -1) := by
  have e : (spec o).map Prod.fst = o.params.map Param.name := by simp [spec, Function.comp_def]
  have := Verif.Pub.index_of (ps := spec o) (by rw [e]; exact hn) hof n
  rw [e] at this
  exact this

theorem nodup_index {l : List Str} (h : l.Nodup) {i j : Nat} {n : Str} (hi : l[i]? = some n)
    (hj : l[j]? = some n) : i = j := by
  obtain ⟨a, e1⟩ := List.getElem?_eq_some_iff.mp hi
  obtain ⟨b, e2⟩ := List.getElem?_eq_some_iff.mp hj
  exact (List.getElem_inj h).mp (e1.trans e2.symm)

theorem keywords_ok {R : Registry} {narrow : Fl → Fl} {o : Oper} (hn : (o.params.map Param.name).Nodup)
    (nargs : Nat) (kw : List (Str × Py)) :
    ∀ {r r' : Req}, r.Of (spec o) → Keywords kw → keywords R narrow o.params nargs kw r = .ok r' →
      r'.Of (spec o) ∧
      (∀ n p, (n, p) ∈ kw → ∃ (i : Nat) (par : Param) (v : Any), (o.params.map Param.name)[i]? = some n ∧ nargs ≤ i ∧
        o.params[i]? = some par ∧ Accepts R narrow par p v ∧ r'.get i = some v) ∧
      ∀ i : Nat, (∀ n p, (n, p) ∈ kw → (o.params.map Param.name)[i]? ≠ some n) → r'.get i = r.get i := by
  induction kw with
  | nil =>
    intro r r' hof _ h
    injection h with h; subst h
    exact ⟨hof, by simp, fun _ _ => rfl⟩
  | cons a kw ih =>
    obtain ⟨n, p⟩ := a
    intro r r' hof hk h
    obtain ⟨hnd, hz⟩ := hk
    simp only [List.map_cons, List.nodup_cons] at hnd
    have hk' : Keywords kw := ⟨hnd.2, fun m hm => hz m (by simp only [List.map_cons, List.mem_cons]; exact Or.inr hm)⟩
    have hc : cName n = n := cName_eq (hz n (by simp))
    unfold keywords at h
    rw [hc] at h
    dsimp only at h
    split at h
    · cases h
    · rename_i hne
      split at h
      · cases h
      · rename_i hlt
        split at h
        · cases h
        · rename_i r1 h1
          obtain ⟨hof1, par, v, hp, ha, hg, hother⟩ := put_ok hof h1
          obtain ⟨hof2, hkw, hrest⟩ := ih hof1 hk' h
          obtain ⟨hidx, hidx'⟩ := index_spec hn hof n
          have hmem : n ∈ o.params.map Param.name := Classical.byContradiction fun hm => hne (hidx' hm)
          obtain ⟨i, hi⟩ := List.getElem?_of_mem hmem
          have hii := hidx i hi
          rw [hii] at hlt hp hg hother
          simp only [Int.toNat_natCast] at hp hg hother
          refine ⟨hof2, ?_, ?_⟩
          · intro m q hm
            rcases List.mem_cons.mp hm with e | hm
            · injection e with e1 e2; subst e1; subst e2
              refine ⟨i, par, v, hi, by omega, hp, ha, ?_⟩
              rw [hrest i]
              · exact hg
              · intro m q hmq e
                rw [hi] at e; injection e with e; subst e
                exact hnd.1 (List.mem_map.mpr ⟨_, hmq, rfl⟩)
            · exact hkw m q hm
          · intro j hj
            rw [hrest j (fun m q hmq => hj m q (by simp [hmq]))]
            refine hother j ?_
            rintro rfl
            exact hj n p (by simp) hi

theorem keywords_of {R : Registry} {narrow : Fl → Fl} {o : Oper} (hn : (o.params.map Param.name).Nodup)
    (nargs : Nat) (kw : List (Str × Py)) :
    ∀ {r : Req}, r.Of (spec o) → Keywords kw →
      (∀ n p, (n, p) ∈ kw → ∃ (i : Nat) (par : Param) (v : Any), (o.params.map Param.name)[i]? = some n ∧ nargs ≤ i ∧
        o.params[i]? = some par ∧ Accepts R narrow par p v) →
      ∃ r', keywords R narrow o.params nargs kw r = .ok r' := by
  induction kw with
  | nil => intro r _ _ _; exact ⟨r, rfl⟩
  | cons a kw ih =>
    obtain ⟨n, p⟩ := a
    intro r hof hk h
    obtain ⟨hnd, hz⟩ := hk
    simp only [List.map_cons, List.nodup_cons] at hnd
    have hk' : Keywords kw := ⟨hnd.2, fun m hm => hz m (by simp only [List.map_cons, List.mem_cons]; exact Or.inr hm)⟩
    have hc : cName n = n := cName_eq (hz n (by simp))
    obtain ⟨i, par, v, hi, hl, hp, ha⟩ := h n p (by simp)
    have hii := (index_spec hn hof n).1 i hi
    obtain ⟨r1, h1⟩ := put_of hof hp ha
    obtain ⟨r2, h2⟩ := ih (put_ok hof h1).1 hk' (fun m q hm => h m q (by simp [hm]))
    refine ⟨r2, ?_⟩
    unfold keywords
    rw [hc]
    dsimp only
    rw [hii, if_neg (by omega), if_neg (by omega), Int.toNat_natCast, h1]
    exact h2

/-- If every value is accepted, the loop over the keywords fails only for a bad keyword. -/
theorem keywords_error {R : Registry} {narrow : Fl → Fl} {o : Oper} (hn : (o.params.map Param.name).Nodup)
    (nargs : Nat) (kw : List (Str × Py)) :
    ∀ {r : Req} {e : Err}, r.Of (spec o) → Keywords kw →
      (∀ (n : Str) (p : Py) (i : Nat) (par : Param), (n, p) ∈ kw → (o.params.map Param.name)[i]? = some n →
        o.params[i]? = some par → ∃ v, Accepts R narrow par p v) →
      keywords R narrow o.params nargs kw r = .error e →
      (∃ n p, (n, p) ∈ kw ∧ n ∉ o.params.map Param.name ∧ e = .unexpected n) ∨
      (∃ n p i, (n, p) ∈ kw ∧ (o.params.map Param.name)[i]? = some n ∧ i < nargs ∧ e = .multiple n) := by
  induction kw with
  | nil => intro r e _ _ _ h; cases h
  | cons a kw ih =>
    obtain ⟨n, p⟩ := a
    intro r e hof hk hacc h
    obtain ⟨hnd, hz⟩ := hk
    simp only [List.map_cons, List.nodup_cons] at hnd
    have hk' : Keywords kw := ⟨hnd.2, fun m hm => hz m (by simp only [List.map_cons, List.mem_cons]; exact Or.inr hm)⟩
    have hc : cName n = n := cName_eq (hz n (by simp))
    unfold keywords at h
    rw [hc] at h
    dsimp only at h
    obtain ⟨hidx, hidx'⟩ := index_spec hn hof n
    by_cases hmem : n ∈ o.params.map Param.name
    · obtain ⟨i, hi⟩ := List.getElem?_of_mem hmem
      have hii := hidx i hi
      rw [hii, if_neg (by omega)] at h
      split at h
      · injection h with h
        exact Or.inr ⟨n, p, i, by simp, hi, by omega, h.symm⟩
      · have hp : ∃ par, o.params[i]? = some par := by
          simp only [List.getElem?_map, Option.map_eq_some_iff] at hi
          obtain ⟨par, hp, _⟩ := hi
          exact ⟨par, hp⟩
        obtain ⟨par, hp⟩ := hp
        obtain ⟨v, ha⟩ := hacc n p i par (by simp) hi hp
        obtain ⟨r1, h1⟩ := put_of hof hp ha
        rw [Int.toNat_natCast, h1] at h
        dsimp only at h
        rcases ih (put_ok hof h1).1 hk' (fun m q j par' hm => hacc m q j par' (by simp [hm])) h with
          ⟨m, q, hm, h1, h2⟩ | ⟨m, q, j, hm, h1⟩
        · exact Or.inl ⟨m, q, by simp [hm], h1, h2⟩
        · exact Or.inr ⟨m, q, j, by simp [hm], h1⟩
    · rw [hidx' hmem, if_pos rfl] at h
      injection h with h
      exact Or.inl ⟨n, p, by simp, hmem, h.symm⟩

theorem get_build {o : Oper} (hn : (o.params.map Param.name).Nodup) {i : Nat} {par : Param}
    (h : o.params[i]? = some par) : (Verif.Pub.build (spec o)).get i = some noValue := by
  have hn' : ((spec o).map Prod.fst).Nodup := by simpa [spec, Function.comp_def] using hn
  obtain ⟨h1, _, _⟩ := Verif.Pub.build_spec (spec o) hn'
  exact get_eq (u := par.uuid) (by rw [h1]; simp [spec, h])

/-- What the first two loops leave in the request. -/
theorem bound {R : Registry} {narrow : Fl → Fl} {o : Oper} (hg : o.Good R) {args : List Py}
    {kwargs : List (Str × Py)} (hk : Keywords kwargs) {r1 r2 : Req} (hl : args.length ≤ o.params.length)
    (h1 : positional R narrow o.params 0 args (Verif.Pub.build (spec o)) = .ok r1)
    (h2 : keywords R narrow o.params args.length kwargs r1 = .ok r2) :
    r2.Of (spec o) ∧ Fit (o.params.map Param.name) args kwargs ∧
    ∀ (i : Nat) (par : Param), o.params[i]? = some par →
      (∃ p v, Given (o.params.map Param.name) args kwargs i p ∧ Accepts R narrow par p v ∧
        r2.get i = some v) ∨
      ((∀ p, ¬ Given (o.params.map Param.name) args kwargs i p) ∧ r2.get i = some noValue) := by
  have hof0 : (Verif.Pub.build (spec o)).Of (spec o) :=
    Verif.Pub.of_build (by simpa [spec, Function.comp_def] using hg.nodup)
  obtain ⟨hof1, ha, hr1⟩ := positional_ok args 0 hof0 h1
  obtain ⟨hof2, hkw, hr2⟩ := keywords_ok hg.nodup args.length kwargs hof1 hk h2
  refine ⟨hof2, ⟨by simpa using hl, fun n p hm => ?_⟩, fun i par hp => ?_⟩
  · obtain ⟨i, _, _, h, h', _⟩ := hkw n p hm
    exact ⟨i, h, h'⟩
  · have hname : (o.params.map Param.name)[i]? = some par.name := by simp [hp]
    by_cases hkey : ∃ p, (par.name, p) ∈ kwargs
    · obtain ⟨p, hm⟩ := hkey
      obtain ⟨j, par', v, hj, _, hp', hacc, hget⟩ := hkw _ p hm
      have := nodup_index hg.nodup hname hj
      subst this
      rw [hp] at hp'; injection hp' with hp'; subst hp'
      exact Or.inl ⟨p, v, Or.inr ⟨_, hname, hm⟩, hacc, hget⟩
    · have hsame : r2.get i = r1.get i := hr2 i fun n p hm e => by
        rw [hname] at e; injection e with e; subst e
        exact hkey ⟨p, hm⟩
      cases hc : args[i]? with
      | some p =>
        obtain ⟨par', v, hp', hacc, hget⟩ := ha i p hc
        simp only [Nat.zero_add] at hp' hget
        rw [hp] at hp'; injection hp' with hp'; subst hp'
        exact Or.inl ⟨p, v, Or.inl hc, hacc, by rw [hsame, hget]⟩
      | none =>
        refine Or.inr ⟨fun p hgiven => ?_, ?_⟩
        · rcases hgiven with h | ⟨n, h, hm⟩
          · rw [hc] at h; cases h
          · rw [hname] at h; injection h with h; subst h
            exact hkey ⟨p, hm⟩
        · rw [hsame, hr1 i (by have := List.getElem?_eq_none_iff.mp hc; omega)]
          exact get_build hg.nodup hp

theorem invoke_iff {R : Registry} {o : Oper} (hg : o.Good R) {r : Req} (hof : r.Of (spec o))
    (hlen : o.params.length < 2 ^ 31) (dynamic : Bool) :
    o.invoke R dynamic (some (r.iface o)) = .called ↔
      dynamic = true ∧ ∀ (i : Nat) (par : Param), o.params[i]? = some par → par.dir ≠ .out →
        ∃ v, r.get i = some v ∧ v.type = kindOf R par.uuid := by
  have hc := values_length hof
  rw [Verif.Pub.C56_invoke R o dynamic (some (r.iface o)) hlen (by
    intro q hq; injection hq with hq; subst hq
    dsimp only [Req.iface]; omega)]
  have hidx : ∀ (i : Nat) (par : Param), o.params[i]? = some par → r.index (some par.name) = i :=
    fun i par hp => (index_spec hg.nodup hof par.name).1 i (by simp [hp])
  constructor
  · rintro ⟨q, hq, _, hd, _, h⟩
    injection hq with hq; subst hq
    refine ⟨hd, fun i par hp hdir => ?_⟩
    have := h par (List.mem_of_getElem? hp) hdir
    dsimp only [Req.iface] at this
    rw [hidx i par hp] at this
    exact this
  · rintro ⟨hd, h⟩
    refine ⟨_, rfl, rfl, hd, by dsimp only [Req.iface]; omega, fun par hp hdir => ?_⟩
    obtain ⟨i, hi⟩ := List.getElem?_of_mem hp
    dsimp only [Req.iface]
    rw [hidx i par hi]
    exact h i par hi hdir

/-! ## The properties -/

/-- C119: when the component is called, Python's rules for arguments are met, every parameter that is not
an output only has an argument, and the request holds for every parameter the value of its argument. -/
theorem C119_bound (pcs : List PCall) (o : Oper) (narrow : Fl → Fl) (dynamic : Bool) (args : List Py)
    (kwargs : List (Str × Py)) (hk : Keywords kwargs) (r : Req)
    (ho : o ∈ (prun (initial, ⟨[], []⟩) pcs).2.opers) (hlen : o.params.length < 2 ^ 31) :
    let R := (prun (initial, ⟨[], []⟩) pcs).1
    prepare R narrow o dynamic args kwargs = .ok r →
      dynamic = true ∧ Fit (o.params.map Param.name) args kwargs ∧
      ∀ (i : Nat) (par : Param), o.params[i]? = some par →
        (∃ p v, Given (o.params.map Param.name) args kwargs i p ∧ Accepts R narrow par p v ∧
          r.get i = some v) ∨
        (par.dir = .out ∧ (∀ p, ¬ Given (o.params.map Param.name) args kwargs i p) ∧
          r.get i = some noValue) := by
  intro R h
  have hg := (Verif.Pub.good_prun pcs Verif.Pub.good_start).opers o ho
  unfold prepare at h
  split at h
  · cases h
  · rename_i r0 hr0
    obtain ⟨rfl, hkinds, _⟩ := Verif.Pub.createRequest_some hg hr0
    split at h
    · cases h
    · rename_i hl
      split at h
      · cases h
      · rename_i r1 h1
        split at h
        · cases h
        · rename_i r2 h2
          obtain ⟨hof, hfit, hb⟩ := bound hg hk (by omega) h1 h2
          split at h
          · rename_i hinv
            injection h with h; subst h
            obtain ⟨hd, hall⟩ := (invoke_iff hg hof hlen dynamic).mp hinv
            refine ⟨hd, hfit, fun i par hp => ?_⟩
            rcases hb i par hp with h | ⟨h, h'⟩
            · exact Or.inl h
            · refine Or.inr ⟨Classical.byContradiction fun hdir => ?_, h, h'⟩
              obtain ⟨v, hv, ht⟩ := hall i par hp hdir
              rw [h'] at hv; injection hv with hv; subst hv
              exact hkinds par (List.mem_of_getElem? hp) ht.symm
          · cases h

/-- C119: the component is called when Python's rules are met, every given value is accepted by its
parameter and only outputs have no argument. -/
theorem C119_called (pcs : List PCall) (o : Oper) (narrow : Fl → Fl) (args : List Py)
    (kwargs : List (Str × Py)) (hk : Keywords kwargs)
    (ho : o ∈ (prun (initial, ⟨[], []⟩) pcs).2.opers) (hlen : o.params.length < 2 ^ 31) :
    let R := (prun (initial, ⟨[], []⟩) pcs).1
    (o.createRequest R).isSome → Fit (o.params.map Param.name) args kwargs →
    (∀ (i : Nat) (par : Param) (p : Py), o.params[i]? = some par →
      Given (o.params.map Param.name) args kwargs i p → ∃ v, Accepts R narrow par p v) →
    (∀ (i : Nat) (par : Param), o.params[i]? = some par → par.dir ≠ .out →
      ∃ p, Given (o.params.map Param.name) args kwargs i p) →
    ∃ r, prepare R narrow o true args kwargs = .ok r := by
  intro R hr hfit hacc hall
  have hg := (Verif.Pub.good_prun pcs Verif.Pub.good_start).opers o ho
  obtain ⟨r0, hr0⟩ := Option.isSome_iff_exists.mp hr
  obtain ⟨rfl, hkinds, _⟩ := Verif.Pub.createRequest_some hg hr0
  have hof0 : (Verif.Pub.build (spec o)).Of (spec o) :=
    Verif.Pub.of_build (by simpa [spec, Function.comp_def] using hg.nodup)
  have hl : args.length ≤ o.params.length := by simpa using hfit.1
  obtain ⟨r1, h1⟩ := positional_of (R := R) (narrow := narrow) args 0 hof0 (fun j p hj => by
    have hlt := (List.getElem?_eq_some_iff.mp hj).1
    have hp : o.params[j]? = some o.params[j] := List.getElem?_eq_getElem (by omega)
    obtain ⟨v, ha⟩ := hacc j _ p hp (Or.inl hj)
    exact ⟨_, v, by simpa using hp, ha⟩)
  have hof1 := (positional_ok args 0 hof0 h1).1
  obtain ⟨r2, h2⟩ := keywords_of (R := R) (narrow := narrow) hg.nodup args.length kwargs hof1 hk
    (fun n p hm => by
      obtain ⟨i, hi, hle⟩ := hfit.2 n p hm
      have hp := hi
      simp only [List.getElem?_map, Option.map_eq_some_iff] at hp
      obtain ⟨par, hp, _⟩ := hp
      obtain ⟨v, ha⟩ := hacc i par p hp (Or.inr ⟨n, hi, hm⟩)
      exact ⟨i, par, v, hi, hle, hp, ha⟩)
  obtain ⟨hof2, _, hb⟩ := bound hg hk hl h1 h2
  have hinv : o.invoke R true (some (r2.iface o)) = .called := by
    refine (invoke_iff hg hof2 hlen true).mpr ⟨rfl, fun i par hp hdir => ?_⟩
    rcases hb i par hp with ⟨p, v, _, ha, hget⟩ | ⟨hno, _⟩
    · exact ⟨v, hget, accepts_type ha⟩
    · obtain ⟨p, hp⟩ := hall i par hp hdir
      exact absurd hp (hno p)
  refine ⟨r2, ?_⟩
  unfold prepare
  rw [hr0]
  dsimp only
  rw [if_neg (by omega), h1]
  dsimp only
  rw [h2]
  dsimp only
  rw [hinv]

/-- C119: when every given value is accepted by its parameter, a call fails before the component is
reached exactly as a Python call does: too many positional arguments, an unknown keyword, or a keyword
for an argument given by position. A missing argument is reported too, though not as `TypeError`. -/
theorem C119_errors (pcs : List PCall) (o : Oper) (narrow : Fl → Fl) (args : List Py)
    (kwargs : List (Str × Py)) (hk : Keywords kwargs) (e : Err)
    (ho : o ∈ (prun (initial, ⟨[], []⟩) pcs).2.opers) (hlen : o.params.length < 2 ^ 31) :
    let R := (prun (initial, ⟨[], []⟩) pcs).1
    (o.createRequest R).isSome →
    (∀ (i : Nat) (par : Param) (p : Py), o.params[i]? = some par →
      Given (o.params.map Param.name) args kwargs i p → ∃ v, Accepts R narrow par p v) →
    prepare R narrow o true args kwargs = .error e →
    (o.params.length < args.length ∧ e = .tooMany) ∨
    (args.length ≤ o.params.length ∧ ∃ n p, (n, p) ∈ kwargs ∧ n ∉ o.params.map Param.name ∧
      e = .unexpected n) ∨
    (args.length ≤ o.params.length ∧ ∃ n p i, (n, p) ∈ kwargs ∧
      (o.params.map Param.name)[i]? = some n ∧ i < args.length ∧ e = .multiple n) ∨
    (Fit (o.params.map Param.name) args kwargs ∧ e = .invoke .invalidParameterType ∧
      ∃ (i : Nat) (par : Param), o.params[i]? = some par ∧ par.dir ≠ .out ∧
        ∀ p, ¬ Given (o.params.map Param.name) args kwargs i p) := by
  intro R hr hacc h
  have hg := (Verif.Pub.good_prun pcs Verif.Pub.good_start).opers o ho
  obtain ⟨r0, hr0⟩ := Option.isSome_iff_exists.mp hr
  obtain ⟨rfl, hkinds, _⟩ := Verif.Pub.createRequest_some hg hr0
  have hof0 : (Verif.Pub.build (spec o)).Of (spec o) :=
    Verif.Pub.of_build (by simpa [spec, Function.comp_def] using hg.nodup)
  unfold prepare at h
  rw [hr0] at h
  dsimp only at h
  by_cases hl : o.params.length < args.length
  · rw [if_pos hl] at h
    injection h with h
    exact Or.inl ⟨hl, h.symm⟩
  · have hl' : args.length ≤ o.params.length := by omega
    rw [if_neg hl] at h
    obtain ⟨r1, h1⟩ := positional_of (R := R) (narrow := narrow) args 0 hof0 (fun j p hj => by
      have hlt := (List.getElem?_eq_some_iff.mp hj).1
      have hp : o.params[j]? = some o.params[j] := List.getElem?_eq_getElem (by omega)
      obtain ⟨v, ha⟩ := hacc j _ p hp (Or.inl hj)
      exact ⟨_, v, by simpa using hp, ha⟩)
    have hof1 := (positional_ok args 0 hof0 h1).1
    rw [h1] at h
    dsimp only at h
    cases h2 : keywords R narrow o.params args.length kwargs r1 with
    | error e' =>
      rw [h2] at h
      injection h with h; subst h
      rcases keywords_error hg.nodup args.length kwargs hof1 hk
        (fun n p i par hm hi hp => hacc i par p hp (Or.inr ⟨n, hi, hm⟩)) h2 with hx | hx
      · exact Or.inr (Or.inl ⟨hl', hx⟩)
      · exact Or.inr (Or.inr (Or.inl ⟨hl', hx⟩))
    | ok r2 =>
      rw [h2] at h
      dsimp only at h
      obtain ⟨hof2, hfit, hb⟩ := bound hg hk hl' h1 h2
      refine Or.inr (Or.inr (Or.inr ⟨hfit, ?_⟩))
      have hidx : ∀ (i : Nat) (par : Param), o.params[i]? = some par → r2.index (some par.name) = i :=
        fun i par hp => (index_spec hg.nodup hof2 par.name).1 i (by simp [hp])
      -- the check of the operation ends with a parameter without a value
      have key : ∀ (ps : List Param), (∀ par ∈ ps, par ∈ o.params) →
          Verif.Pub.checkParams R (r2.iface o) ps = .called ∨
          (Verif.Pub.checkParams R (r2.iface o) ps = .invalidParameterType ∧
            ∃ (i : Nat) (par : Param), o.params[i]? = some par ∧ par.dir ≠ .out ∧
              ∀ p, ¬ Given (o.params.map Param.name) args kwargs i p) := by
        intro ps
        induction ps with
        | nil => intro _; exact Or.inl rfl
        | cons par ps ih =>
          intro hsub
          have ih := ih fun q hq => hsub q (by simp [hq])
          obtain ⟨i, hi⟩ := List.getElem?_of_mem (hsub par (by simp))
          unfold Verif.Pub.checkParams
          by_cases hd : par.dir = .out
          · rw [if_pos hd]; exact ih
          · rw [if_neg hd]
            have e1 : (r2.iface o).value ((r2.iface o).index (some par.name)) = r2.get i := by
              dsimp only [Req.iface]; rw [hidx i par hi]
            rw [e1]
            rcases hb i par hi with ⟨p, v, _, ha, hget⟩ | ⟨hno, hget⟩
            · rw [hget]
              dsimp only
              rw [if_neg (not_not_intro (accepts_type ha))]
              exact ih
            · rw [hget]
              dsimp only
              rw [if_pos (fun e => hkinds par (hsub par (by simp)) e.symm)]
              exact Or.inr ⟨rfl, i, par, hi, hd, hno⟩
      have hinv : o.invoke R true (some (r2.iface o)) = Verif.Pub.checkParams R (r2.iface o) o.params := by
        have hc := values_length hof2
        dsimp only [Oper.invoke]
        rw [if_neg (by simp [Req.iface]), if_neg (by simp), if_neg]
        have : Verif.Pub.toSize (r2.iface o).count = o.params.length := by
          dsimp only [Req.iface, Verif.Pub.toSize]; omega
        rw [this]; simp
      rw [hinv] at h
      rcases key o.params (fun _ h => h) with hk | ⟨hk, hx⟩
      · rw [hk] at h; cases h
      · rw [hk] at h
        injection h with h
        exact ⟨h.symm, hx⟩

/-! ### The result -/

theorem name_grammar_step {s : Registry × Pubn}
    (h : ∀ o ∈ s.2.opers, (∀ p ∈ o.params, Grammar p.name) ∧ ∀ p, o.ret = some p → Grammar p.name)
    (c : PCall) : ∀ o ∈ (Verif.Pub.pstep s c).2.opers,
      (∀ p ∈ o.params, Grammar p.name) ∧ ∀ p, o.ret = some p → Grammar p.name := by
  cases c with
  | reg op => exact h
  | unpublish => intro o ho; cases ho
  | property n u a =>
    have : (Verif.Pub.pstep s (.property n u a)).2.opers = s.2.opers := by
      simp only [Verif.Pub.pstep, Pubn.publishProperty]
      repeat' (first | rfl | split)
    rw [this]; exact h
  | operation n =>
    intro o ho
    simp only [Verif.Pub.pstep, Pubn.publishOperation] at ho
    split at ho
    · obtain ⟨o', ho', rfl⟩ := List.mem_map.mp ho
      split
      · exact ⟨by simp, by simp⟩
      · exact h o' ho'
    · split at ho
      · exact h o ho
      · rcases List.mem_append.mp ho with ho | ho
        · exact h o ho
        · simp only [List.mem_singleton] at ho; subst ho
          exact ⟨by simp, by simp⟩
  | parameter on n u d =>
    intro o ho
    simp only [Verif.Pub.pstep, Pubn.publishParameter] at ho
    obtain ⟨o', ho', rfl⟩ := List.mem_map.mp ho
    obtain ⟨h1, h2⟩ := h o' ho'
    split
    · obtain ⟨hs1, hs2, hs3⟩ := Verif.Pub.C56_signature s.1 o' n u d
      by_cases he : (o'.publishParameter s.1 n u d).2 = none
      · have hgr := (hs1.mp he).2.1
        rw [hs2 he]
        split
        · refine ⟨h1, fun p hp => ?_⟩
          injection hp with hp; subst hp; exact hgr
        · refine ⟨fun p hp => ?_, h2⟩
          rcases List.mem_append.mp hp with hp | hp
          · exact h1 p hp
          · simp only [List.mem_singleton] at hp; subst hp; exact hgr
      · rw [hs3 he]; exact ⟨h1, h2⟩
    · exact ⟨h1, h2⟩

/-- The names of parameters follow the grammar of names. -/
theorem name_grammar (pcs : List PCall) : ∀ {s : Registry × Pubn},
    (∀ o ∈ s.2.opers, (∀ p ∈ o.params, Grammar p.name) ∧ ∀ p, o.ret = some p → Grammar p.name) →
    ∀ o ∈ (prun s pcs).2.opers, (∀ p ∈ o.params, Grammar p.name) ∧ ∀ p, o.ret = some p → Grammar p.name := by
  induction pcs with
  | nil => intro s h; exact h
  | cons c cs ih => intro s h; exact ih (name_grammar_step h c)

theorem grammar_head {n : Str} (h : Grammar ('_' :: n)) : False := by
  rcases h with ⟨c, w, e, hc, _⟩ | ⟨ds, e, _⟩
  · injection e with e _; subst e; revert hc; decide
  · injection e with e _; revert e; decide

theorem pythonName_inj {n m : Str} (hn : Grammar n) (hm : Grammar m)
    (h : pythonName n = pythonName m) : n = m := by
  unfold pythonName at h
  split at h <;> split at h
  · injection h
  · subst h; exact (grammar_head hm).elim
  · subst h; exact (grammar_head hn).elim
  · exact h

theorem getAttr_set (a : Attrs) (n m : Str) (p : Py) :
    getAttr (setAttr a n p) m = if m = n then some p else getAttr a m := by
  unfold getAttr setAttr
  by_cases h : m = n
  · subst h; simp
  · rw [if_neg h, List.find?_cons_of_neg (by simpa using fun e => h e.symm), List.find?_filter]
    congr 2
    funext e
    by_cases he : e.1 = m
    · simp [he, h]
    · simp [he]

theorem converted_ok {α : Type} {x : Verif.Python.Value.Res α} {a : α} (h : converted x = .ok a) : x = .ok a := by
  unfold converted at h
  split at h
  · injection h with h; rw [h]
  · cases h
  · cases h

theorem outputs_ok (r : Req) (ps : List Param) : ∀ (a a' : Attrs), (∀ p ∈ ps, Grammar p.name) →
    (ps.map Param.name).Nodup → outputs r ps a = .ok a' →
    (∀ p ∈ ps, p.dir ≠ .in → ∃ v x, r.get (r.index (some p.name)) = some v ∧ toPy v = .ok x ∧
      getAttr a' (pythonName p.name) = some x) ∧
    ∀ n, (∀ p ∈ ps, p.dir ≠ .in → pythonName p.name ≠ n) → getAttr a' n = getAttr a n := by
  induction ps with
  | nil =>
    intro a a' _ _ h
    injection h with h; subst h
    exact ⟨by simp, fun _ _ => rfl⟩
  | cons p ps ih =>
    intro a a' hgr hnd h
    simp only [List.map_cons, List.nodup_cons] at hnd
    have hgr' : ∀ q ∈ ps, Grammar q.name := fun q hq => hgr q (by simp [hq])
    unfold outputs at h
    split at h
    · rename_i hd
      obtain ⟨h1, h2⟩ := ih a a' hgr' hnd.2 h
      refine ⟨fun q hq hqd => ?_, fun n hn => h2 n fun q hq => hn q (by simp [hq])⟩
      rcases List.mem_cons.mp hq with rfl | hq
      · exact absurd hd hqd
      · exact h1 q hq hqd
    · rename_i hd
      split at h
      · cases h
      · rename_i v hv
        split at h
        · cases h
        · rename_i x hx
          obtain ⟨h1, h2⟩ := ih _ a' hgr' hnd.2 h
          refine ⟨fun q hq hqd => ?_, fun n hn => ?_⟩
          · rcases List.mem_cons.mp hq with rfl | hq
            · refine ⟨v, x, hv, converted_ok hx, ?_⟩
              rw [h2 _ fun q' hq' _ e => ?_, getAttr_set, if_pos rfl]
              have := pythonName_inj (hgr' q' hq') (hgr q (by simp)) e
              exact hnd.1 (List.mem_map.mpr ⟨q', hq', this⟩)
            · exact h1 q hq hqd
          · rw [h2 n fun q hq => hn q (by simp [hq]), getAttr_set,
              if_neg (fun e => hn p (by simp) hd e.symm)]

theorem runComponent_of {R : Registry} {o : Oper} (es : List Effect) : ∀ {r r' : Req}, r.Of (spec o) →
    runComponent R o es r = .ok r' → r'.Of (spec o) := by
  induction es with
  | nil => intro r r' h e; injection e with e; subst e; exact h
  | cons x es ih =>
    intro r r' h e
    cases x with
    | set i v =>
      unfold runComponent at e
      split at e
      · rename_i r1 h1
        have := of_set (R := R) h i v
        rw [h1] at this
        exact ih this e
      · cases e
    | ret v =>
      unfold runComponent at e
      split at e
      · rename_i r1 h1
        have := of_setReturn (R := R) h (o.ret.map Param.uuid) v
        rw [h1] at this
        exact ih this e
      · cases e

theorem prepare_of {R : Registry} {narrow : Fl → Fl} {o : Oper} (hg : o.Good R) {dynamic : Bool}
    {args : List Py} {kwargs : List (Str × Py)} (hk : Keywords kwargs) {r : Req}
    (h : prepare R narrow o dynamic args kwargs = .ok r) : r.Of (spec o) := by
  unfold prepare at h
  split at h
  · cases h
  · rename_i r0 hr0
    obtain ⟨rfl, _, _⟩ := Verif.Pub.createRequest_some hg hr0
    split at h
    · cases h
    · rename_i hl
      split at h
      · cases h
      · rename_i r1 h1
        split at h
        · cases h
        · rename_i r2 h2
          obtain ⟨hof, _, _⟩ := bound hg hk (by omega) h1 h2
          split at h
          · injection h with h; subst h; exact hof
          · cases h

/-- C119: the result of a call is `None` if the operation has no outputs; otherwise an object with an
attribute for the return value and one for every parameter that is not only an input, each the value that
the component left, and no other attribute. The attribute is the name of the parameter, with an
underscore before it if it is a reserved word. -/
theorem C119_result (pcs : List PCall) (o : Oper) (narrow : Fl → Fl) (dynamic : Bool)
    (body : Req → Option (List Effect)) (args : List Py) (kwargs : List (Str × Py)) (hk : Keywords kwargs)
    (res : Option Attrs) (ho : o ∈ (prun (initial, ⟨[], []⟩) pcs).2.opers) :
    let R := (prun (initial, ⟨[], []⟩) pcs).1
    call R narrow o dynamic body args kwargs = .ok res →
    ∃ r es r', prepare R narrow o dynamic args kwargs = .ok r ∧ body r = some es ∧
      runComponent R o es r = .ok r' ∧
      (res = none ↔ o.ret = none ∧ ∀ par ∈ o.params, par.dir = .in) ∧
      ∀ a, res = some a →
        (∀ par, o.ret = some par → ∃ x, toPy r'.ret = .ok x ∧ getAttr a (pythonName par.name) = some x) ∧
        (∀ (i : Nat) (par : Param), o.params[i]? = some par → par.dir ≠ .in →
          ∃ v x, r'.get i = some v ∧ toPy v = .ok x ∧ getAttr a (pythonName par.name) = some x) ∧
        (∀ n, getAttr a n ≠ none → (∃ par, o.ret = some par ∧ n = pythonName par.name) ∨
          ∃ par ∈ o.params, par.dir ≠ .in ∧ n = pythonName par.name) := by
  intro R h
  have hg := (Verif.Pub.good_prun pcs Verif.Pub.good_start).opers o ho
  obtain ⟨hgr, hgr'⟩ := name_grammar pcs (s := (initial, ⟨[], []⟩)) (by intro o h; cases h) o ho
  unfold call at h
  split at h
  · cases h
  · rename_i r hr
    split at h
    · cases h
    · rename_i es hes
      split at h
      · cases h
      · rename_i r' hr'
        have hof := runComponent_of es (prepare_of hg hk hr) hr'
        have hidx : ∀ (i : Nat) (par : Param), o.params[i]? = some par → r'.index (some par.name) = i :=
          fun i par hp => (index_spec hg.nodup hof par.name).1 i (by simp [hp])
        refine ⟨r, es, r', hr, hes, hr', ?_⟩
        unfold result at h
        split at h
        · rename_i hret
          split at h
          · cases h
          · rename_i a ha
            injection h with h
            obtain ⟨h1, h2⟩ := outputs_ok r' o.params [] a hgr hg.nodup ha
            by_cases hall : ∀ par ∈ o.params, par.dir = .in
            · rw [if_pos (by simpa using hall)] at h
              subst h
              exact ⟨⟨fun _ => ⟨hret, hall⟩, fun _ => rfl⟩, by simp⟩
            · rw [if_neg (by simpa using hall)] at h
              subst h
              refine ⟨⟨by simp, fun h => absurd h.2 hall⟩, ?_⟩
              rintro _ ⟨rfl⟩
              refine ⟨by simp [hret], fun i par hp hd => ?_, fun n hn => ?_⟩
              · have := h1 par (List.mem_of_getElem? hp) hd
                rw [hidx i par hp] at this
                exact this
              · refine Or.inr (Classical.byContradiction fun hno => hn ?_)
                rw [h2 n fun p hp hd e => hno ⟨p, hp, hd, e.symm⟩]
                rfl
        · rename_i rp hret
          split at h
          · cases h
          · rename_i x hx
            split at h
            · cases h
            · rename_i a ha
              injection h with h; subst h
              obtain ⟨h1, h2⟩ := outputs_ok r' o.params _ a hgr hg.nodup ha
              refine ⟨⟨by simp, fun h => by rw [hret] at h; cases h.1⟩, ?_⟩
              rintro _ ⟨rfl⟩
              refine ⟨fun par hpar => ?_, fun i par hp hd => ?_, fun n hn => ?_⟩
              · rw [hret] at hpar; injection hpar with hpar; subst hpar
                refine ⟨x, converted_ok hx, ?_⟩
                rw [h2 _ fun p hp _ e => ?_, getAttr_set, if_pos rfl]
                have := pythonName_inj (hgr p hp) (hgr' rp hret) e
                exact (hg.ret rp hret).1 (List.mem_map.mpr ⟨p, hp, this⟩)
              · have := h1 par (List.mem_of_getElem? hp) hd
                rw [hidx i par hp] at this
                exact this
              · by_cases hpn : n = pythonName rp.name
                · exact Or.inl ⟨rp, hret, hpn⟩
                · refine Or.inr (Classical.byContradiction fun hno => hn ?_)
                  rw [h2 n fun p hp hd e => hno ⟨p, hp, hd, e.symm⟩, getAttr_set, if_neg hpn]
                  rfl

/-! ### Where it differs from a Python function -/

/-- C119: a call whose first positional argument cannot be converted to the kind of its parameter fails
with the exception of the conversion, and the component is not called. -/
theorem C119_unconverted (R : Registry) (o : Oper) (narrow : Fl → Fl) (dynamic : Bool) (p : Py)
    (args : List Py) (kwargs : List (Str × Py)) (par : Param)
    (hr : (o.createRequest R).isSome) (hlen : (p :: args).length ≤ o.params.length)
    (hp : o.params[0]? = some par)
    (hbad : ∃ e : Verif.Python.Value.Res Any, ofPy narrow p (kindOf R par.uuid) = e ∧
      (e = .castError ∨ e = .valueError ∨ e = .unicodeError ∨ e = .typeError ∨ e = .invalidAnyType)) :
    prepare R narrow o dynamic (p :: args) kwargs = .error .convert := by
  obtain ⟨r, hr⟩ := Option.isSome_iff_exists.mp hr
  obtain ⟨e, he, hbad⟩ := hbad
  unfold prepare
  rw [hr]
  dsimp only
  rw [if_neg (by omega)]
  simp only [positional, put, hp, he]
  rcases hbad with rfl | rfl | rfl | rfl | rfl <;> rfl

/-- The reserved words of Python 3.7 and later. -/
def pythonKeywords : List Str :=
  ["False", "None", "True", "and", "as", "assert", "async", "await", "break", "class", "continue", "def",
    "del", "elif", "else", "except", "finally", "for", "from", "global", "if", "import", "in", "is",
    "lambda", "nonlocal", "not", "or", "pass", "raise", "return", "try", "while", "with", "yield"].map
    String.toList

/-- C119: a name gets an underscore exactly if it is a reserved word other than `async` and `await`. -/
theorem C119_names_partial (n : Str) :
    (n ∈ pythonKeywords ∧ n ≠ "async".toList ∧ n ≠ "await".toList → pythonName n = '_' :: n) ∧
    (n ∉ pythonKeywords → pythonName n = n) := by
  have h1 : ∀ n ∈ pythonKeywords, n ≠ "async".toList → n ≠ "await".toList → n ∈ reserved := by decide +kernel
  have h2 : ∀ n ∈ reserved, n ∈ pythonKeywords := by decide +kernel
  constructor
  · rintro ⟨h, ha, hb⟩
    unfold pythonName
    rw [if_pos (h1 n h ha hb)]
  · intro h
    unfold pythonName
    rw [if_neg fun h' => h (h2 n h')]

example : pythonName "if".toList = "_if".toList ∧ pythonName "x".toList = "x".toList := by decide +kernel

/-- C119 fails: an output named `async` or `await` keeps a name that cannot be written in Python. -/
theorem C119_names_fails : ∃ n ∈ pythonKeywords, Grammar n ∧ pythonName n = n := by
  refine ⟨"await".toList, by decide +kernel, ?_, by decide +kernel⟩
  exact Or.inl ⟨'a', "wait".toList, rfl, by decide, by decide⟩

/-- C119 fails: a parameter whose name is a reserved word cannot be given by its Python name: the keyword
with the underscore is never accepted, whatever the operation. -/
theorem C119_keyword_fails (pcs : List PCall) (o : Oper) (narrow : Fl → Fl) (dynamic : Bool) (args : List Py)
    (kwargs : List (Str × Py)) (hk : Keywords kwargs) (n : Str) (p : Py)
    (ho : o ∈ (prun (initial, ⟨[], []⟩) pcs).2.opers) (hlen : o.params.length < 2 ^ 31)
    (hn : n ∈ reserved) (hm : (pythonName n, p) ∈ kwargs) (r : Req) :
    prepare (prun (initial, ⟨[], []⟩) pcs).1 narrow o dynamic args kwargs ≠ .ok r := by
  intro h
  obtain ⟨_, hfit, _⟩ := C119_bound pcs o narrow dynamic args kwargs hk r ho hlen h
  obtain ⟨i, hi, _⟩ := hfit.2 _ p hm
  have hmem := List.mem_of_getElem? hi
  obtain ⟨par, hpar, e⟩ := List.mem_map.mp hmem
  obtain ⟨hgr, _⟩ := name_grammar pcs (s := (initial, ⟨[], []⟩)) (by intro o h; cases h) o ho
  have := hgr par hpar
  rw [e] at this
  unfold pythonName at this
  rw [if_pos hn] at this
  exact grammar_head this

/-! ### A concrete operation -/

/-- `Int32 f(in Int32 a, out Float64 if)`. -/
def exampleCalls : List PCall :=
  [.operation (some "f".toList), .parameter "f".toList "a".toList (Verif.Pub.primUuid .Int32) .in,
    .parameter "f".toList "if".toList (Verif.Pub.primUuid .Float64) .out,
    .parameter "f".toList "r".toList (Verif.Pub.primUuid .Int32) .return]

def exampleOper : Oper :=
  ⟨"f".toList, [⟨"a".toList, Verif.Pub.primUuid .Int32, .in⟩, ⟨"if".toList, Verif.Pub.primUuid .Float64, .out⟩],
    some ⟨"r".toList, Verif.Pub.primUuid .Int32, .return⟩⟩

example : (prun (initial, ⟨[], []⟩) exampleCalls).2.opers = [exampleOper] := rfl

example : Keywords [("a".toList, Py.int 5)] := ⟨by decide, by decide⟩

example : call (prun (initial, ⟨[], []⟩) exampleCalls).1 id exampleOper true
    (fun _ => some [.set 1 ⟨.Float64, .float (.fin 2)⟩, .ret ⟨.Int32, .int 7⟩]) [] [("a".toList, .int 5)] =
    .ok (some [("_if".toList, .float (.fin 2)), ("r".toList, .int 7)]) := rfl

example : prepare (prun (initial, ⟨[], []⟩) exampleCalls).1 id exampleOper true [.int 5] [("a".toList, .int 5)] =
    .error (.multiple "a".toList) := rfl

example : prepare (prun (initial, ⟨[], []⟩) exampleCalls).1 id exampleOper true [] [] =
    .error (.invoke .invalidParameterType) := rfl

-- a text for an integer parameter
example : prepare (prun (initial, ⟨[], []⟩) exampleCalls).1 id exampleOper true [.str "x".toList] [] =
    .error .convert := rfl

end Verif.Python.Call
