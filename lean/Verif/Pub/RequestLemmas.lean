import Verif.Pub.Request
import Verif.Pub.TypeProps
import Verif.Any.Props

/-! Lemmas on flattened names and on requests. -/
namespace Verif.Pub
open Verif.Any (Kind Fl Val Any Out getInt getF64 getString)
open Verif.Path (Str checkName)

/-! ### Flattened names -/

/-- A name of a parameter or of a field: not empty, and no `'['` or `'.'` after the first
character (every name `checkName` accepts is one). -/
def Plain (p : Str) : Prop := p ≠ [] ∧ ∀ c ∈ p.tail, c ≠ '[' ∧ c ≠ '.'

mutual
/-- In every structure the fields have different, plain names. -/
def Shape.Names : Shape → Prop
  | .array _ s => s.Names
  | .struct fs => (fs.map Prod.fst).Nodup ∧ (∀ f ∈ fs.map Prod.fst, Plain f) ∧ NamesL fs
  | _ => True
def NamesL : List (Str × Shape) → Prop
  | [] => True
  | (_, s) :: fs => s.Names ∧ NamesL fs
end

/-- What follows a name: nothing, an index or a field. -/
def Sep (r : Str) : Prop := r = [] ∨ ∃ c r', r = c :: r' ∧ (c = '[' ∨ c = '.')

theorem plain_prefix {p q r r' : Str} (hp : p ≠ []) (hq : Plain q)
    (hr : Sep r) (hl : p.length ≤ q.length) (h : p ++ r = q ++ r') : p = q := by
  obtain ⟨d, hd⟩ : ∃ d, q = p ++ d := by
    have : p <+: q ++ r' := h ▸ List.prefix_append p r
    obtain ⟨d, hd⟩ := List.prefix_of_prefix_length_le this (List.prefix_append q r') hl
    exact ⟨d, hd.symm⟩
  subst hd
  rw [List.append_assoc, List.append_cancel_left_eq] at h
  cases d with
  | nil => simp
  | cons c d =>
    rcases hr with rfl | ⟨c', r1, rfl, hc⟩
    · simp at h
    · simp only [List.cons_append, List.cons.injEq] at h
      obtain ⟨rfl, _⟩ := h
      have := hq.2 c' (by
        cases p with
        | nil => exact absurd rfl hp
        | cons a p => simp)
      rcases hc with rfl | rfl
      · exact absurd rfl this.1
      · exact absurd rfl this.2

theorem plain_inj {p q r r' : Str} (hp : Plain p) (hq : Plain q) (hr : Sep r) (hr' : Sep r')
    (h : p ++ r = q ++ r') : p = q := by
  rcases Nat.le_total p.length q.length with hl | hl
  · exact plain_prefix hp.1 hq hr hl h
  · exact (plain_prefix hq.1 hp hr' hl h.symm).symm

theorem idx_plain (i : Nat) : Plain (idx i) := by
  refine ⟨by simp [idx], ?_⟩
  intro c hc
  simp only [idx, List.tail_cons, List.mem_append, List.mem_singleton] at hc
  rcases hc with hc | rfl
  · have := Nat.isDigit_of_mem_toDigits (b := 10) (by decide) (by decide) hc
    constructor <;> (rintro rfl; revert this; decide)
  · decide

theorem idx_inj {i j : Nat} (h : idx i = idx j) : i = j := by
  simp only [idx, List.cons.injEq, true_and] at h
  have h2 := List.append_cancel_right h
  have e : ∀ n, Nat.ofDigitChars 10 (Nat.toDigits 10 n) 0 = n := fun n =>
    Nat.ofDigitChars_toDigits (by decide) (by decide)
  rw [← e i, h2, e j]

/-- Names flattened from one name: all start with it and are different. -/
def From (name : Str) (L : List (Str × Uuid)) : Prop :=
  (∀ p ∈ L, ∃ r, p.1 = name ++ r ∧ Sep r) ∧ (L.map Prod.fst).Nodup

theorem loop_from {name : Str} {f : Nat → Option (List (Str × Uuid))}
    (hf : ∀ i L, f i = some L → From (name ++ idx i) L) :
    ∀ n L, loop f n = some L →
      (∀ p ∈ L, ∃ i < n, ∃ r, p.1 = name ++ (idx i ++ r) ∧ Sep r) ∧ (L.map Prod.fst).Nodup
  | 0, L, h => by simp only [loop, Option.some.injEq] at h; subst h; simp
  | n + 1, L, h => by
    simp only [loop] at h
    split at h
    · rename_i a b ha hb
      cases h
      obtain ⟨h1, h2⟩ := loop_from hf n a ha
      obtain ⟨h3, h4⟩ := hf n b hb
      constructor
      · intro p hp
        rcases List.mem_append.1 hp with hp | hp
        · obtain ⟨i, hi, r, hr⟩ := h1 p hp
          exact ⟨i, by omega, r, hr⟩
        · obtain ⟨r, hr, hs⟩ := h3 p hp
          exact ⟨n, by omega, r, by rw [hr, List.append_assoc], hs⟩
      · rw [List.map_append, List.nodup_append]
        refine ⟨h2, h4, ?_⟩
        intro x hx y hy hxy
        obtain ⟨p, hp, rfl⟩ := List.mem_map.1 hx
        obtain ⟨q, hq, rfl⟩ := List.mem_map.1 hy
        obtain ⟨i, hi, r, hr, hs⟩ := h1 p hp
        obtain ⟨r', hr', hs'⟩ := h3 q hq
        rw [hr, hr', List.append_assoc, List.append_cancel_left_eq] at hxy
        have := idx_inj (plain_inj (idx_plain i) (idx_plain n) hs hs' hxy)
        omega
    · cases h

mutual
theorem flatten_from (name : Str) : ∀ (s : Shape) (L : List (Str × Uuid)), s.Names →
    flatten name s = some L → From name L
  | .simple u, L, _, h => by
    simp only [flatten, Option.some.injEq] at h
    subst h
    exact ⟨fun p hp => ⟨[], by simp_all, Or.inl rfl⟩, by simp⟩
  | .array n item, L, hn, h => by
    simp only [flatten] at h
    simp only [Shape.Names] at hn
    obtain ⟨h1, h2⟩ := loop_from (name := name)
      (fun i L hL => flatten_from (name ++ idx i) item L hn hL) n L h
    refine ⟨fun p hp => ?_, h2⟩
    obtain ⟨i, _, r, hr, _⟩ := h1 p hp
    exact ⟨idx i ++ r, hr, Or.inr ⟨'[', _, rfl, Or.inl rfl⟩⟩
  | .struct fs, L, hn, h => by
    simp only [flatten] at h
    simp only [Shape.Names] at hn
    obtain ⟨h1, h2⟩ := fields_from name fs L hn.1 hn.2.1 hn.2.2 h
    refine ⟨fun p hp => ?_, h2⟩
    obtain ⟨f, _, r, hr, _⟩ := h1 p hp
    exact ⟨'.' :: (f ++ r), hr, Or.inr ⟨'.', _, rfl, Or.inr rfl⟩⟩
  | .missing, L, _, h => by simp [flatten] at h
  | .unsupported, L, _, h => by simp [flatten] at h
  | .deep, L, _, h => by simp [flatten] at h
theorem fields_from (name : Str) : ∀ (fs : List (Str × Shape)) (L : List (Str × Uuid)),
    (fs.map Prod.fst).Nodup → (∀ f ∈ fs.map Prod.fst, Plain f) → NamesL fs →
    flattenFields name fs = some L →
    (∀ p ∈ L, ∃ f ∈ fs.map Prod.fst, ∃ r, p.1 = name ++ '.' :: (f ++ r) ∧ Sep r) ∧
      (L.map Prod.fst).Nodup
  | [], L, _, _, _, h => by
    simp only [flattenFields, Option.some.injEq] at h; subst h; simp
  | (f, s) :: fs, L, hnd, hpl, hn, h => by
    simp only [flattenFields] at h
    simp only [NamesL] at hn
    simp only [List.map_cons, List.nodup_cons] at hnd
    split at h
    · rename_i a b ha hb
      cases h
      obtain ⟨h1, h2⟩ := flatten_from (name ++ '.' :: f) s a hn.1 ha
      obtain ⟨h3, h4⟩ := fields_from name fs b hnd.2
        (fun g hg => hpl g (by simp only [List.map_cons]; exact List.mem_cons_of_mem _ hg)) hn.2 hb
      constructor
      · intro p hp
        rcases List.mem_append.1 hp with hp | hp
        · obtain ⟨r, hr, hs⟩ := h1 p hp
          exact ⟨f, by simp, r, by rw [hr]; simp, hs⟩
        · obtain ⟨g, hg, r, hr⟩ := h3 p hp
          exact ⟨g, by simp only [List.map_cons]; exact List.mem_cons_of_mem _ hg, r, hr⟩
      · rw [List.map_append, List.nodup_append]
        refine ⟨h2, h4, ?_⟩
        intro x hx y hy hxy
        obtain ⟨p, hp, rfl⟩ := List.mem_map.1 hx
        obtain ⟨q, hq, rfl⟩ := List.mem_map.1 hy
        obtain ⟨r, hr, hs⟩ := h1 p hp
        obtain ⟨g, hg, r', hr', hs'⟩ := h3 q hq
        rw [hr, hr', List.append_assoc, List.append_cancel_left_eq, List.cons_append,
          List.cons.injEq] at hxy
        have := plain_inj (hpl f (by simp))
          (hpl g (by simp only [List.map_cons]; exact List.mem_cons_of_mem _ hg)) hs hs' hxy.2
        subst this
        exact hnd.1 hg
    · cases h
end

theorem flattenAll_from : ∀ (ps : List (Str × Shape)) (L : List (Str × Uuid)),
    (ps.map Prod.fst).Nodup → (∀ f ∈ ps.map Prod.fst, Plain f) →
    (∀ p ∈ ps, p.2.Names) → flattenAll ps = some L →
    (∀ p ∈ L, ∃ f ∈ ps.map Prod.fst, ∃ r, p.1 = f ++ r ∧ Sep r) ∧ (L.map Prod.fst).Nodup
  | [], L, _, _, _, h => by simp only [flattenAll, Option.some.injEq] at h; subst h; simp
  | (f, s) :: fs, L, hnd, hpl, hn, h => by
    simp only [flattenAll] at h
    simp only [List.map_cons, List.nodup_cons] at hnd
    split at h
    · rename_i a b ha hb
      cases h
      obtain ⟨h1, h2⟩ := flatten_from f s a (hn _ (List.mem_cons_self ..)) ha
      obtain ⟨h3, h4⟩ := flattenAll_from fs b hnd.2
        (fun g hg => hpl g (by simp only [List.map_cons]; exact List.mem_cons_of_mem _ hg))
        (fun p hp => hn p (List.mem_cons_of_mem _ hp)) hb
      constructor
      · intro p hp
        rcases List.mem_append.1 hp with hp | hp
        · exact ⟨f, by simp, h1 p hp⟩
        · obtain ⟨g, hg, r, hr⟩ := h3 p hp
          exact ⟨g, by simp only [List.map_cons]; exact List.mem_cons_of_mem _ hg, r, hr⟩
      · rw [List.map_append, List.nodup_append]
        refine ⟨h2, h4, ?_⟩
        intro x hx y hy hxy
        obtain ⟨p, hp, rfl⟩ := List.mem_map.1 hx
        obtain ⟨q, hq, rfl⟩ := List.mem_map.1 hy
        obtain ⟨r, hr, hs⟩ := h1 p hp
        obtain ⟨g, hg, r', hr', hs'⟩ := h3 q hq
        rw [hr, hr'] at hxy
        have := plain_inj (hpl f (by simp))
          (hpl g (by simp only [List.map_cons]; exact List.mem_cons_of_mem _ hg)) hs hs' hxy
        subst this
        exact hnd.1 hg
    · cases h

/-! ### The request built from flattened parameters -/

theorem build_spec (ps : List (Str × Uuid)) (hn : (ps.map Prod.fst).Nodup) :
    (build ps).values = ps.map (fun p => (noValue, p.2)) ∧
    (build ps).indexes = ps.mapIdx (fun i p => (p.1, i)) ∧ (build ps).ret = noValue := by
  have key : ∀ (rs done : List (Str × Uuid)) (r : Req), ((done ++ rs).map Prod.fst).Nodup →
      r.values = done.map (fun p => (noValue, p.2)) →
      r.indexes = done.mapIdx (fun i p => (p.1, i)) →
      (rs.foldl Req.push r).values = (done ++ rs).map (fun p => (noValue, p.2)) ∧
      (rs.foldl Req.push r).indexes = (done ++ rs).mapIdx (fun i p => (p.1, i)) ∧
      (rs.foldl Req.push r).ret = r.ret := by
    intro rs
    induction rs with
    | nil => intro done r _ h1 h2; simp [h1, h2]
    | cons p rs ih =>
      intro done r hnd h1 h2
      rw [List.foldl_cons]
      have hnew : (r.indexes.any fun e => e.1 == p.1) = false := by
        rw [h2, List.any_eq_false]
        intro e he
        obtain ⟨i, hi, rfl⟩ := List.mem_mapIdx.1 he
        simp only [beq_iff_eq]
        intro heq
        rw [List.map_append, List.nodup_append] at hnd
        exact hnd.2.2 done[i].1 (List.mem_map_of_mem (List.getElem_mem hi)) p.1 (by simp) heq
      have := ih (done ++ [p]) (r.push p) (by simpa using hnd)
        (by simp [Req.push, h1])
        (by
          simp only [Req.push, hnew]
          rw [if_neg (by simp), List.mapIdx_append, h2]
          simp)
      simpa [Req.push] using this
  have := key ps [] ⟨[], [], noValue⟩ (by simpa using hn) rfl rfl
  simpa [build] using this

/-- The parameters of the request: their names are at their places in `_indexes`, their types
in `_values`. -/
structure Req.Of (ps : List (Str × Uuid)) (r : Req) : Prop where
  types : r.values.map Prod.snd = ps.map Prod.snd
  indexes : r.indexes = ps.mapIdx (fun i p => (p.1, i))

theorem of_build {ps : List (Str × Uuid)} (hn : (ps.map Prod.fst).Nodup) :
    (build ps).Of ps := by
  obtain ⟨h1, h2, _⟩ := build_spec ps hn
  exact ⟨by rw [h1]; simp [Function.comp_def], h2⟩

theorem set_cases (R : Registry) (r : Req) (i : Int) (v : Any) :
    ((r.set R i v).1 = r ∧ (r.set R i v).2 ≠ .ok) ∨
    (∃ k : Nat, i = k ∧ ∃ w u t, r.values[k]? = some (w, u) ∧ getType R u = some t ∧
      isValid t v = .ok true ∧
      r.set R i v = ({ r with values := r.values.set k (v, u) }, .ok)) := by
  unfold Req.set
  split
  · exact Or.inl ⟨rfl, by simp⟩
  · rename_i hi
    split
    · exact Or.inl ⟨rfl, by simp⟩
    · rename_i w u hv
      split
      · exact Or.inl ⟨rfl, by simp⟩
      · rename_i t ht
        split
        · exact Or.inl ⟨rfl, by simp⟩
        · exact Or.inl ⟨rfl, by simp⟩
        · split
          · exact Or.inl ⟨rfl, by simp⟩
          · exact Or.inl ⟨rfl, by simp⟩
        · rename_i hval
          exact Or.inr ⟨i.toNat, by omega, w, u, t, hv, ht, hval, rfl⟩

theorem setReturn_cases (R : Registry) (r : Req) (u : Option Uuid) (v : Any) :
    ((r.setReturn R u v).1 = r ∧ (r.setReturn R u v).2 ≠ .ok) ∨
    (∃ u' t, u = some u' ∧ getType R u' = some t ∧ isValid t v = .ok true ∧
      r.setReturn R u v = ({ r with ret := v }, .ok)) := by
  unfold Req.setReturn
  split
  · exact Or.inl ⟨rfl, by simp⟩
  · rename_i u'
    split
    · exact Or.inl ⟨rfl, by simp⟩
    · rename_i t ht
      split
      · exact Or.inl ⟨rfl, by simp⟩
      · exact Or.inl ⟨rfl, by simp⟩
      · exact Or.inl ⟨rfl, by simp⟩
      · rename_i hval
        exact Or.inr ⟨u', t, rfl, ht, hval, rfl⟩

theorem of_rstep {ps : List (Str × Uuid)} {s : Registry × Req} (h : s.2.Of ps) (c : RCall) :
    (rstep s c).2.Of ps := by
  cases c with
  | reg op => exact h
  | set i v =>
    rcases set_cases s.1 s.2 i v with ⟨he, _⟩ | ⟨k, rfl, w, u, t, hk, _, _, he⟩
    · simp only [rstep]; rw [he]; exact h
    · simp only [rstep]
      rw [he]
      refine ⟨?_, h.indexes⟩
      rw [← h.types]
      simp only [List.map_set]
      apply List.ext_getElem?
      intro j
      by_cases hj : k = j
      · subst hj
        have hlt : k < s.2.values.length := by
          rw [List.getElem?_eq_some_iff] at hk; exact hk.1
        rw [List.getElem?_set_self (by simpa using hlt), List.getElem?_map, hk]
        rfl
      · rw [List.getElem?_set_ne hj]
  | setReturn u v =>
    rcases setReturn_cases s.1 s.2 u v with ⟨he, _⟩ | ⟨u', t, _, _, _, he⟩
    · simp only [rstep]; rw [he]; exact h
    · simp only [rstep]; rw [he]; exact ⟨h.types, h.indexes⟩

theorem of_rrun {ps : List (Str × Uuid)} (cs : List RCall) :
    ∀ {s : Registry × Req}, s.2.Of ps → (rrun s cs).2.Of ps := by
  induction cs with
  | nil => intro s h; exact h
  | cons c cs ih => intro s h; exact ih (of_rstep h c)

theorem index_of {ps : List (Str × Uuid)} (hn : (ps.map Prod.fst).Nodup) {r : Req}
    (h : r.Of ps) (n : Str) :
    (∀ i : Nat, (ps.map Prod.fst)[i]? = some n → r.index (some n) = i) ∧
    (n ∉ ps.map Prod.fst → r.index (some n) = -1) := by
  constructor
  · intro i hi
    simp only [List.getElem?_map, Option.map_eq_some_iff] at hi
    obtain ⟨p, hp, rfl⟩ := hi
    obtain ⟨hlt, hp'⟩ := List.getElem?_eq_some_iff.1 hp
    have : r.indexes.find? (fun e => e.1 == p.1) = some (p.1, i) := by
      rw [h.indexes]
      rw [List.find?_eq_some_iff_getElem]
      refine ⟨by simp, i, by simpa using hlt, by simp [hp'], ?_⟩
      intro j hj
      simp only [List.getElem_mapIdx, Bool.not_eq_true', beq_eq_false_iff_ne, ne_eq]
      intro heq
      have hnd := List.nodup_iff_pairwise_ne.1 hn |> List.pairwise_iff_getElem.1
      have := hnd j i (by simp; omega) (by simpa using hlt) hj
      simp only [List.getElem_map, hp'] at this
      exact this heq
    simp only [Req.index, this]
  · intro hn'
    have : r.indexes.find? (fun e => e.1 == n) = none := by
      rw [List.find?_eq_none, h.indexes]
      intro e he
      obtain ⟨i, hi, rfl⟩ := List.mem_mapIdx.1 he
      simp only [beq_iff_eq]
      rintro rfl
      exact hn' (List.mem_map_of_mem (List.getElem_mem hi))
    simp only [Req.index, this]

theorem get_ofNat (r : Req) (k : Nat) : r.get k = r.values[k]?.map Prod.fst := by
  unfold Req.get
  split
  · rename_i h
    rw [List.getElem?_eq_none (by omega)]; rfl
  · rfl

end Verif.Pub
