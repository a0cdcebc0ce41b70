/-
Model of `std::set<EventId, std::less<std::make_unsigned_t<EventId>>>`
(XsmpScheduler.h:389-391): identifiers in increasing order of their unsigned
64-bit image, without duplicates.
-/
namespace Verif

/-- Unsigned image of a 64-bit signed identifier, the order key of an
`EventList` (XsmpScheduler.h:389-391). -/
def ukey (i : Int) : Int := if i < 0 then i + 18446744073709551616 else i

namespace IdSet

/-- `std::set::emplace`. (Used in XsmpScheduler.cpp:125-287.) -/
def insert (i : Int) : List Int → List Int
  | [] => [i]
  | j :: t =>
    if i = j then j :: t
    else if ukey i < ukey j then i :: j :: t
    else j :: insert i t

/-- `std::set::erase(key)`. (Used in XsmpScheduler.cpp:234-378.) -/
def erase (i : Int) (l : List Int) : List Int := l.filter (fun j => j ≠ i)

/-- `std::set::insert(first, last)`. (Used in XsmpScheduler.cpp:501.) -/
def insertAll (xs : List Int) (l : List Int) : List Int := xs.foldl (fun acc x => insert x acc) l

/-- Representation invariant: strictly increasing unsigned images. -/
def Sorted (l : List Int) : Prop := l.Pairwise (fun a b => ukey a < ukey b)

theorem mem_insert {i j : Int} {l : List Int} : i ∈ insert j l ↔ i = j ∨ i ∈ l := by
  induction l with
  | nil => simp [insert]
  | cons k t ih =>
    simp only [insert]
    split
    · subst_vars; simp
    · split
      · simp
      · simp only [List.mem_cons, ih]; grind

theorem mem_erase {i j : Int} {l : List Int} : i ∈ erase j l ↔ i ∈ l ∧ i ≠ j := by
  simp [erase]

theorem mem_insertAll {i : Int} {xs l : List Int} : i ∈ insertAll xs l ↔ i ∈ xs ∨ i ∈ l := by
  unfold insertAll
  induction xs generalizing l with
  | nil => simp
  | cons x t ih => simp only [List.foldl_cons, ih, mem_insert, List.mem_cons]; grind

theorem Sorted.nodup {l : List Int} (h : Sorted l) : l.Nodup :=
  List.Pairwise.imp (fun hab hne => by subst hne; omega) h

theorem sorted_nil : Sorted [] := List.Pairwise.nil

/-- Identifiers that fit a signed 64-bit integer are told apart by their
unsigned image. -/
theorem ukey_inj {i j : Int} (hi : -9223372036854775808 ≤ i) (hi' : i ≤ 9223372036854775807)
    (hj : -9223372036854775808 ≤ j) (hj' : j ≤ 9223372036854775807)
    (h : ukey i = ukey j) : i = j := by
  unfold ukey at h; split at h <;> split at h <;> omega

/-- The identifiers held by an `EventList`: everything representable as Int64. -/
def InRange (i : Int) : Prop := -9223372036854775808 ≤ i ∧ i ≤ 9223372036854775807

theorem Sorted.insert {i : Int} {l : List Int} (h : Sorted l) (hi : InRange i)
    (hl : ∀ j ∈ l, InRange j) : Sorted (insert i l) := by
  induction l with
  | nil => simp [IdSet.insert, Sorted]
  | cons k t ih =>
    have h1 := (List.pairwise_cons.1 h).1
    have h2 := (List.pairwise_cons.1 h).2
    simp only [IdSet.insert]
    split
    · exact h
    · split
      · refine List.pairwise_cons.2 ⟨?_, h⟩
        intro b hb
        rcases List.mem_cons.1 hb with hb | hb
        · subst hb; assumption
        · have := h1 b hb; omega
      · refine List.pairwise_cons.2 ⟨?_, ih h2 (fun j hj => hl j (List.mem_cons_of_mem _ hj))⟩
        intro b hb
        rcases mem_insert.1 hb with hb | hb
        · subst hb
          have hk := hl k List.mem_cons_self
          have : ukey b ≠ ukey k := fun he => by
            have := ukey_inj hi.1 hi.2 hk.1 hk.2 he
            contradiction
          omega
        · exact h1 b hb

theorem Sorted.erase {i : Int} {l : List Int} (h : Sorted l) : Sorted (erase i l) :=
  List.Pairwise.filter _ h

theorem Sorted.insertAll {xs l : List Int} (h : Sorted l) (hx : ∀ j ∈ xs, InRange j)
    (hl : ∀ j ∈ l, InRange j) : Sorted (insertAll xs l) := by
  unfold IdSet.insertAll
  induction xs generalizing l with
  | nil => exact h
  | cons x t ih =>
    simp only [List.foldl_cons]
    refine ih (h.insert (hx _ List.mem_cons_self) hl)
      (fun j hj => hx j (List.mem_cons_of_mem _ hj)) ?_
    intro j hj
    rcases mem_insert.1 hj with hj | hj
    · subst hj; exact hx _ List.mem_cons_self
    · exact hl j hj

end IdSet
end Verif
