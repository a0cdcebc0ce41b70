import Verif.Raise.Values
import Verif.Any.ReportProps
import Verif.Any.Print

/-! Property C112: what the exceptions of fields say about indexes, sizes and values. -/
namespace Verif.Raise
open Verif.Any (Kind Fl Val Any Out Report OutE)
open Verif.Field (Arr Arrs ARes Cell Net)

/-! ### Specification -/

/-- How a call ends: normally, with an exception, with undefined behaviour. -/
inductive End
  | done | raised | ub
  deriving DecidableEq

def endOf : Option FEx → End
  | none => .done
  | some .ub => .ub
  | some _ => .raised

def arrEnd : ARes → End
  | .ok _ => .done
  | .raised _ => .raised
  | .ub => .ub

def outEnd {α} : Out α → End
  | .ok _ => .done
  | .throw => .raised
  | .ub => .ub

def netEnd : Field.Res → Option End
  | .ok _ => some .done
  | .raised _ => some .raised
  | .ub => some .ub
  | .diverges => none

/-- The kind of the C++ type that stores the values of a kind: times are `Int64`. -/
def storedAs : Kind → Kind
  | .Duration | .DateTime => .Int64
  | k => k

/-- The two kinds of `InvalidAnyType` are the kind of the value and the one it was to be converted to;
in the order of the standard when the value could have been converted were it another one, in the
other order when no value of its kind can. -/
def KindsTold (r : Report) (asked there : Kind) : Prop :=
  (Any.readable there asked = true ∧ r.expected = asked ∧ r.invalid = there) ∨
  (Any.readable there asked = false ∧ r.expected = there ∧ r.invalid = asked)

/-- What an exception of `SetValue(k, a)` of an array says is true. -/
def ItemTells (c : Arr) (k : Nat) (a : Any) : FEx → Prop
  | .arrayIndex size i => size = c.values.length ∧ i = k ∧ ¬ k < c.values.length
  | .arrayValue i v => i = k ∧ v = a ∧ (c.kind = .None ∨ (c.style = .anonymous ∧ c.kind = .String8))
  | .fieldValue v => v = a ∧ c.style = .plain ∧ a.type ≠ c.kind
  | .anyType r => KindsTold r (storedAs c.kind) a.type
  | _ => False

/-- What an exception of `SetValues(as)` of an array says is true. -/
def AllTells (narrow : Fl → Fl) (c : Arr) (as : List Any) : FEx → Prop
  | .arraySize size given => size = c.values.length ∧ given = as.length ∧ size ≠ given
  | .arrayValue i v => ∃ k : Nat, i = k ∧ as[k]? = some v ∧
      (v.type ≠ c.kind ∨ c.kind = .None ∨ (c.style = .anonymous ∧ c.kind = .String8)) ∧
      ∀ j b, j < k → as[j]? = some b → itemSetRaises narrow c j b = none
  | .anyType r => ∃ k a, as[k]? = some a ∧ KindsTold r (storedAs c.kind) a.type ∧
      ∀ j b, j < k → as[j]? = some b → itemSetRaises narrow c j b = none
  | _ => False

/-! ### Lemmas -/

theorem toInt64_of {n : Nat} (h : n < 9223372036854775808) : toInt64 n = n := by
  unfold toInt64
  rw [BitVec.toInt_ofNat', Int.bmod_eq_of_le (by omega) (by omega)]

theorem refuse_of {a : Any} {e : FEx} (h : a.value ≠ .str none) : refuse a e = e := by
  unfold refuse
  rw [if_neg h]

/-- The message of a refused value can be written except for a null string. -/
theorem refuse_print (env : Any.Print.Env) (b : Any.Print.Base) (a : Any) (h : a.Ok) :
    Any.Print.print env b a = .ub ↔ a.value = .str none := by
  obtain ⟨t, v⟩ := a
  cases t <;> cases v <;> simp_all [Any.Print.print, Any.Any.Ok, Any.Kind.Range]
  rename_i s
  cases s <;> simp

theorem ofOut_forget {α} (o : OutE α) : endOf (ofOut o) = outEnd o.forget := by
  cases o <;> rfl

theorem outEnd_map {α β} (f : α → β) (o : Out α) : outEnd (o.map f) = outEnd o := by
  cases o <;> rfl

theorem conv_same (narrow : Fl → Fl) (k : Kind) (len : Nat) (a : Any) (hk : k ≠ .None) :
    endOf (convRaises narrow k a) = outEnd (Field.coerce narrow k len a) := by
  cases k <;> simp only [convRaises, readerOf, Field.coerce, outEnd_map, ofOut_forget, ne_eq,
    not_true_eq_false, Any.getBoolE_forget, Any.getCharE_forget, Any.getStringE_forget,
    Any.getIntE_forget, Any.getF32E_forget, Any.getF64E_forget] at *

theorem ofOut_raised {α} {o : OutE α} {e : FEx} (h : ofOut o = some e) :
    e = .ub ∨ ∃ r, e = .anyType r ∧ Any.raised o = some r := by
  cases o with
  | ok a => cases h
  | bad r => cases h; exact .inr ⟨r, rfl, rfl⟩
  | ub => cases h; exact .inl rfl

theorem conv_raises {narrow : Fl → Fl} {k : Kind} {a : Any} {e : FEx}
    (h : convRaises narrow k a = some e) :
    e = .ub ∨ ∃ r, e = .anyType r ∧ Any.readRaises narrow a (readerOf k) = some r := by
  unfold convRaises at h
  unfold Any.readRaises
  cases hr : readerOf k <;> rw [hr] at h <;> exact ofOut_raised h

theorem reader_kind (k : Kind) (hk : k ≠ .None) : (readerOf k).kind = storedAs k := by
  cases k <;> first | rfl | exact absurd rfl hk

theorem conv_tells {narrow : Fl → Fl} {k : Kind} {a : Any} {e : FEx} (hok : a.Ok) (hk : k ≠ .None)
    (hn : e ≠ .ub) (h : convRaises narrow k a = some e) :
    ∃ r, e = .anyType r ∧ KindsTold r (storedAs k) a.type := by
  rcases conv_raises h with rfl | ⟨r, rfl, hr⟩
  · exact absurd rfl hn
  · refine ⟨r, rfl, ?_⟩
    rw [← reader_kind k hk]
    rcases (Any.C99_read_partial narrow a (readerOf k) hok).2 r hr with ⟨h1, h2⟩ | ⟨h1, h2⟩
    · exact .inl ⟨h1, h2.1, h2.2⟩
    · exact .inr ⟨h1, h2.1, h2.2⟩

/-! ### C112 -/

/-- The values of a call that the message can show: none is a null string. -/
def Shown (as : List Any) : Prop := ∀ a ∈ as, a.Ok ∧ a.value ≠ .str none

theorem item_end (narrow : Fl → Fl) (n : Arrs) (i k : Nat) (a : Any) (ha : a.Ok)
    (hs : a.value ≠ .str none) :
    endOf (itemSetRaises narrow (n i) k a) = arrEnd (Field.aset narrow n i k a) := by
  have hnone : ∀ len, (n i).kind = .None → a.type = .None →
      endOf (convRaises narrow (n i).kind a) =
        outEnd (Field.coerce narrow (n i).kind len a) := by
    intro len hk ht
    obtain ⟨t, v⟩ := a
    dsimp only at ht
    subst ht
    rw [hk]
    cases v <;> first | rfl | exact ha.elim
  have hco : ∀ len, ((n i).kind = .None → a.type = .None) →
      endOf (convRaises narrow (n i).kind a) =
        outEnd (Field.coerce narrow (n i).kind len a) := by
    intro len h
    by_cases hk : (n i).kind = .None
    · exact hnone len hk (h hk)
    · exact conv_same narrow _ len a hk
  have harr : ¬ (n i).values.length ≤ k →
      arrEnd (Field.aset narrow n i k a) = outEnd ((n i).item narrow a) := by
    intro hl
    unfold Field.aset
    rw [if_neg hl]
    cases (n i).item narrow a <;> rfl
  unfold itemSetRaises
  split
  · rename_i hl
    unfold Field.aset
    rw [if_pos hl]
    rfl
  · rename_i hl
    rw [harr hl]
    unfold Field.Arr.item
    cases hst : (n i).style with
    | plain =>
      dsimp only
      split
      · rw [refuse_of hs]; rfl
      · rename_i ht
        exact hco _ (fun hk => by rw [← hk]; exact Classical.not_not.1 ht)
    | published =>
      dsimp only
      by_cases hk : (n i).kind = .None
      · rw [if_pos hk, if_neg (by rw [hk]; decide), refuse_of hs, hk]
        rfl
      · rw [if_neg hk]
        by_cases h8 : (n i).kind = .String8
        · cases hl : (n i).len with
          | none => rw [if_pos ⟨h8, rfl⟩, if_pos h8]; rfl
          | some l =>
            rw [if_neg (by simp), if_pos h8]
            exact hco _ (fun h => absurd h hk)
        · rw [if_neg (fun h => h8 h.1), if_neg h8]
          exact hco _ (fun h => absurd h hk)
    | anonymous =>
      dsimp only
      by_cases h8 : (n i).kind = .String8
      · rw [if_pos (.inr h8), if_pos h8, refuse_of hs]; rfl
      · rw [if_neg h8]
        by_cases hk : (n i).kind = .None
        · rw [if_pos (.inl hk), refuse_of hs, hk]; rfl
        · rw [if_neg (by simp [h8, hk])]
          exact hco _ (fun h => absurd h hk)

/-- What a successful `SetValue` keeps. -/
theorem aset_keeps {narrow : Fl → Fl} {n n' : Arrs} {i k : Nat} {a : Any}
    (h : Field.aset narrow n i k a = .ok n') : (n' i).style = (n i).style ∧
      (n' i).kind = (n i).kind ∧ (n' i).len = (n i).len ∧
      (n' i).values.length = (n i).values.length := by
  unfold Field.aset at h
  split at h
  · cases h
  · split at h
    · cases h
      simp [Arrs.set]
    · cases h
    · cases h

theorem itemSet_congr {narrow : Fl → Fl} {c d : Arr} (h : d.style = c.style ∧ d.kind = c.kind ∧
    d.len = c.len ∧ d.values.length = c.values.length) (k : Nat) (a : Any) :
    itemSetRaises narrow d k a = itemSetRaises narrow c k a := by
  unfold itemSetRaises
  rw [h.1, h.2.1, h.2.2.1, h.2.2.2]

theorem itemsSet_congr {narrow : Fl → Fl} {c d : Arr} (h : d.style = c.style ∧ d.kind = c.kind ∧
    d.len = c.len ∧ d.values.length = c.values.length) (k : Nat) (as : List Any) :
    itemsSetRaises narrow d k as = itemsSetRaises narrow c k as := by
  induction as generalizing k with
  | nil => rfl
  | cons a as ih =>
    simp only [itemsSetRaises]
    rw [h.1, h.2.1, itemSet_congr h, ih]

/-- C112: the calls that are refused are those of the model of arrays (of C88 and others), for every
array, every index and every list of values none of which is a null string. -/
theorem C112_same (narrow : Fl → Fl) (n : Arrs) (i : Nat) (as : List Any) (hs : Shown as) :
    (∀ k, ∀ a ∈ as, endOf (itemSetRaises narrow (n i) k a) = arrEnd (Field.aset narrow n i k a)) ∧
    endOf (allSetRaises narrow (n i) as) = arrEnd (Field.asetAll narrow n i as) ∧
    (∀ k, endOf (itemGetRaises (n i) k) = outEnd ((n i).get k)) := by
  refine ⟨fun k a ha => item_end narrow n i k a (hs a ha).1 (hs a ha).2, ?_, ?_⟩
  · unfold allSetRaises Field.asetAll
    split
    · rfl
    · have loop : ∀ (as : List Any) (m : Arrs) (k : Nat), Shown as →
          endOf (itemsSetRaises narrow (m i) k as) = arrEnd (Field.asetLoop narrow m i k as) := by
        intro as
        induction as with
        | nil => intro m k _; rfl
        | cons a as ih =>
          intro m k hs
          obtain ⟨ha1, ha2⟩ := hs a List.mem_cons_self
          have hr : Shown as := fun b hb => hs b (List.mem_cons_of_mem _ hb)
          simp only [itemsSetRaises, Field.asetLoop]
          split
          · rw [refuse_of ha2]; rfl
          · have he := item_end narrow m i k a ha1 ha2
            cases hx : Field.aset narrow m i k a with
            | ok m' =>
              rw [hx] at he
              cases hi : itemSetRaises narrow (m i) k a with
              | none =>
                dsimp only
                rw [← itemsSet_congr (aset_keeps hx)]
                exact ih m' (k + 1) hr
              | some e => rw [hi] at he; cases e <;> cases he
            | raised m' =>
              rw [hx] at he
              cases hi : itemSetRaises narrow (m i) k a with
              | none => rw [hi] at he; cases he
              | some e => rw [hi] at he; exact he
            | ub =>
              rw [hx] at he
              cases hi : itemSetRaises narrow (m i) k a with
              | none => rw [hi] at he; cases he
              | some e => rw [hi] at he; exact he
      exact loop as n 0 hs
  · intro k
    unfold itemGetRaises Field.Arr.get
    split
    · rename_i h
      rw [List.getElem?_eq_none h]
      rfl
    · rename_i h
      rw [List.getElem?_eq_getElem (by omega)]
      dsimp only
      split <;> rfl

/-- An array of three `Int8`, as published. -/
def threeBytes (s : Field.Style) : Arr :=
  ⟨s, .Int8, none, false, false, false, [.int 1, .int 2, .int 3], []⟩

example : allSetRaises id (threeBytes .published) [⟨.Int8, .int 5⟩, ⟨.Int16, .int 6⟩, ⟨.Int8, .int 7⟩] =
    some (.arrayValue 1 ⟨.Int16, .int 6⟩) ∧
    Shown [⟨.Int8, .int 5⟩, ⟨.Int16, .int 6⟩, ⟨.Int8, .int 7⟩] := by
  refine ⟨by decide, ?_⟩
  intro a ha
  simp only [List.mem_cons, List.not_mem_nil, or_false] at ha
  rcases ha with rfl | rfl | rfl <;>
    exact ⟨by show _ ∧ _; decide, by decide⟩

/-- C112, as far as it is true: what an exception of `SetValue(k, a)`, of `GetValue(k)` or of
`GetItem(k)` carries is true, for every array whose size, and every index that, is below 2^63, and
every value that is not a null string.
Missing: larger indexes (`C112_index_fails`), null strings (`C112_null_fails`), the class of the
exception of a value of another kind (`C112_class_fails`), and the order of the kinds of
`InvalidAnyType` when no value of the kind can be converted (`C112_kinds_fails`, see C99). -/
theorem C112_item_partial (narrow : Fl → Fl) (c : Arr) (k : Nat) (a : Any) (e : FEx)
    (hc : c.values.length < 9223372036854775808) (hk : k < 9223372036854775808) (hok : a.Ok)
    (hs : a.value ≠ .str none) (hn : e ≠ .ub) :
    (itemSetRaises narrow c k a = some e → c.kind ≠ .None ∨ c.style ≠ .plain → ItemTells c k a e) ∧
    (itemGetRaises c k = some e →
      (e = .arrayIndex c.values.length k ∧ c.values.length ≤ k) ∨ e = .primitive c.kind) ∧
    (∀ size, size < 9223372036854775808 → (getItemRaises size k = none ↔ k < size) ∧
      (getItemRaises size k = some e → e = .arrayIndex size k ∧ size ≤ k)) := by
  refine ⟨?_, ?_, ?_⟩
  · intro h hp
    unfold itemSetRaises at h
    split at h
    · rename_i hl
      cases h
      exact ⟨toInt64_of hc, toInt64_of hk, by omega⟩
    · cases hst : c.style with
      | plain =>
        rw [hst] at h hp
        dsimp only at h
        split at h
        · rename_i ht
          rw [refuse_of hs] at h
          cases h
          exact ⟨rfl, hst, ht⟩
        · obtain ⟨r, rfl, hr⟩ := conv_tells hok (by simpa using hp) hn h
          exact hr
      | published =>
        rw [hst] at h
        dsimp only at h
        split at h
        · rename_i h0
          rw [refuse_of hs] at h
          cases h
          exact ⟨toInt64_of hk, rfl, .inl h0⟩
        · rename_i h0
          split at h
          · cases h; exact absurd rfl hn
          · obtain ⟨r, rfl, hr⟩ := conv_tells hok h0 hn h
            exact hr
      | anonymous =>
        rw [hst] at h
        dsimp only at h
        split at h
        · rename_i h0
          rw [refuse_of hs] at h
          cases h
          exact ⟨toInt64_of hk, rfl, h0.elim .inl (fun h => .inr ⟨hst, h⟩)⟩
        · rename_i h0
          obtain ⟨r, rfl, hr⟩ := conv_tells hok (fun h => h0 (.inl h)) hn h
          exact hr
  · intro h
    unfold itemGetRaises at h
    split at h
    · rename_i hl
      cases h
      rw [toInt64_of hc, toInt64_of hk]
      exact .inl ⟨rfl, hl⟩
    · split at h
      · cases h; exact .inr rfl
      · cases h
  · intro size hsz
    refine ⟨by unfold getItemRaises; split <;> simp <;> omega, fun h => ?_⟩
    unfold getItemRaises at h
    split at h
    · rename_i hl
      cases h
      rw [toInt64_of hsz, toInt64_of hk]
      exact ⟨rfl, hl⟩
    · cases h

example : itemSetRaises id (threeBytes .anonymous) 3 ⟨.Int8, .int 5⟩ = some (.arrayIndex 3 3) ∧
    itemSetRaises id (threeBytes .published) 1 ⟨.Int16, .int 300⟩ =
      some (.anyType ⟨.Int8, .Int16⟩) := by decide

/-- C112, as far as it is true: what an exception of `SetValues` carries is true, and it tells the
first of the values that are refused. -/
theorem C112_all_partial (narrow : Fl → Fl) (c : Arr) (as : List Any) (e : FEx)
    (hc : c.values.length < 9223372036854775808) (hl : as.length < 9223372036854775808)
    (hs : Shown as) (hn : e ≠ .ub) (hk : c.kind ≠ .None ∨ c.style ≠ .plain)
    (h : allSetRaises narrow c as = some e) : AllTells narrow c as e := by
  unfold allSetRaises at h
  split at h
  · rename_i hne
    cases h
    rw [toInt64_of hc, toInt64_of hl]
    exact ⟨rfl, rfl, fun hh => hne (by omega)⟩
  · rename_i heq
    have heq : as.length = c.values.length := Classical.not_not.1 heq
    have loop : ∀ (rest pre : List Any), as = pre ++ rest →
        (∀ j b, j < pre.length → as[j]? = some b → itemSetRaises narrow c j b = none) →
        itemsSetRaises narrow c pre.length rest = some e → AllTells narrow c as e := by
      intro rest
      induction rest with
      | nil => intro pre _ _ h; cases h
      | cons a rest ih =>
        intro pre hp hpre h
        have hget : as[pre.length]? = some a := by
          rw [hp, List.getElem?_append_right (Nat.le_refl _), Nat.sub_self]; rfl
        have hmem : a ∈ as := List.mem_of_getElem? hget
        have hlen : pre.length < as.length := by
          rw [hp, List.length_append, List.length_cons]; omega
        obtain ⟨hok, hv⟩ := hs a hmem
        simp only [itemsSetRaises] at h
        split at h
        · rename_i hty
          rw [refuse_of hv] at h
          cases h
          exact ⟨pre.length, toInt64_of (by omega), hget, .inl hty.2, hpre⟩
        · rename_i hty
          split at h
          · rename_i e' he
            cases h
            have ht := (C112_item_partial narrow c pre.length a e hc (by omega) hok hv hn).1 he hk
            cases e with
            | arrayIndex s x => exact absurd (heq ▸ hlen) ht.2.2
            | arrayValue x v =>
              obtain ⟨h1, rfl, h3⟩ := ht
              exact ⟨pre.length, h1, hget, .inr h3, hpre⟩
            | fieldValue v =>
              exact absurd ⟨by rw [ht.2.1]; decide, ht.2.2⟩ hty
            | anyType r => exact ⟨pre.length, a, hget, ht, hpre⟩
            | arraySize _ _ => exact ht.elim
            | primitive _ => exact ht
            | ub => exact ht
          · rename_i hnone
            refine ih (pre ++ [a]) (by rw [hp]; simp) ?_ (by simpa using h)
            intro j b hj hb
            rw [List.length_append, List.length_singleton] at hj
            by_cases hjl : j < pre.length
            · exact hpre j b hjl hb
            · have : j = pre.length := by omega
              subst this
              rw [hget] at hb
              cases hb
              exact hnone
    exact loop as [] rfl (by intro j b hj; cases hj) h

example : allSetRaises id (threeBytes .plain) [⟨.Int8, .int 5⟩] = some (.arraySize 3 1) := by decide

/-- C112, simple fields: the value that an enumeration of four bytes has no literal for is refused with
that value, other refusals are those of the conversion; and the refused calls are those of the model
of fields, for a field that pushes to no other. -/
theorem C112_field_partial (narrow : Fl → Fl) (n : Net) (i f : Nat) (a : Any) (hok : a.Ok)
    (hs : a.value ≠ .str none) (hcon : (n i).connectable = false) :
    some (endOf (fieldSetRaises narrow (n i) a)) = netEnd (Field.setValue narrow (f + 1) n i a) ∧
    ∀ e, fieldSetRaises narrow (n i) a = some e → e ≠ .ub →
      (e = .fieldValue a ∧ (n i).kind = .Int32 ∧ ∃ ls, (n i).lits = some ls ∧
        ∀ v, Field.coerce narrow .Int32 (n i).len a = .ok (.int v) → v ∉ ls) ∨
      (∃ r, e = .anyType r ∧ KindsTold r (storedAs (n i).kind) a.type) ∨
      (e = .primitive .None ∧ (n i).kind = .None) := by
  by_cases hk : (n i).kind = .None
  · constructor
    · simp only [fieldSetRaises, hk, if_true, Field.setValue, Field.coerce, endOf, netEnd]
    · intro e he _
      simp only [fieldSetRaises, hk, if_true] at he
      cases he
      exact .inr (.inr ⟨rfl, hk⟩)
  have hsame := conv_same narrow (n i).kind (n i).len a hk
  constructor
  · simp only [fieldSetRaises, if_neg hk, Field.setValue]
    cases hco : Field.coerce narrow (n i).kind (n i).len a with
    | ok v =>
      rw [hco] at hsame
      cases hcv : convRaises narrow (n i).kind a with
      | some e => rw [hcv] at hsame; cases e <;> cases hsame
      | none =>
        dsimp only
        unfold Field.store
        cases hh : (n i).held with
        | true => simp [endOf, netEnd]
        | false =>
          cases hacc : (n i).accepts v with
          | true => simp [endOf, netEnd, hcon]
          | false => simp [endOf, netEnd, refuse_of hs]
    | throw =>
      rw [hco] at hsame
      cases hcv : convRaises narrow (n i).kind a with
      | some e => rw [hcv] at hsame; exact congrArg some hsame
      | none => rw [hcv] at hsame; cases hsame
    | ub =>
      rw [hco] at hsame
      cases hcv : convRaises narrow (n i).kind a with
      | some e => rw [hcv] at hsame; exact congrArg some hsame
      | none => rw [hcv] at hsame; cases hsame
  · intro e he hn
    simp only [fieldSetRaises, if_neg hk] at he
    cases hcv : convRaises narrow (n i).kind a with
    | some e' =>
      rw [hcv] at he
      cases he
      exact .inr (.inl (conv_tells hok hk hn hcv))
    | none =>
      rw [hcv] at he
      dsimp only at he
      split at he
      · rename_i v hv
        split at he
        · cases he
        · rename_i hacc
          rw [refuse_of hs] at he
          cases he
          simp only [Bool.or_eq_true, not_or, Bool.not_eq_true] at hacc
          have h2 := hacc.2
          unfold Field.Cell.accepts at h2
          have hk32 : (n i).kind = .Int32 := by
            split at h2
            · cases h2
            · simp at h2; exact h2.1
            · simpa using h2
          refine .inl ⟨rfl, hk32, ?_⟩
          cases hls : (n i).lits with
          | none => rw [hls] at h2; cases h2
          | some ls =>
            refine ⟨ls, rfl, fun w hw => ?_⟩
            rw [hk32, hw] at hv
            cases hv
            rw [hls] at h2
            simp at h2
            exact h2.2
      · cases he

/-- A field of an enumeration with the values 1 and 2. -/
def mode : Cell := ⟨.Int32, 0, true, false, false, false, some [1, 2], .int 1, false, []⟩

example : fieldSetRaises id mode ⟨.Int32, .int 7⟩ = some (.fieldValue ⟨.Int32, .int 7⟩) ∧
    fieldSetRaises id mode ⟨.Int8, .int 2⟩ = none := by decide

/-! ### What is false -/

/-- C112 is false of indexes from 2^63 on: `GetValue(2^63)` reports the index -2^63, for every
array. -/
theorem C112_index_fails (c : Arr) (hc : c.values.length < 9223372036854775808) :
    itemGetRaises c 9223372036854775808 = some (.arrayIndex c.values.length (-9223372036854775808)) := by
  unfold itemGetRaises
  rw [if_pos (by omega), toInt64_of hc]
  rfl

/-- C112 is false of the class of the exception: `SetValue` of an array of simple values with a value
of another kind raises `InvalidFieldValue`, which has no index, whereas `SetValues` and the same call
on a published array do not. -/
theorem C112_class_fails (narrow : Fl → Fl) (c : Arr) (k : Nat) (a : Any) (hst : c.style = .plain)
    (hk : k < c.values.length) (ht : a.type ≠ c.kind) (hs : a.value ≠ .str none) :
    itemSetRaises narrow c k a = some (.fieldValue a) := by
  unfold itemSetRaises
  rw [if_neg (by omega), hst]
  dsimp only
  rw [if_pos ht, refuse_of hs]

example : itemSetRaises id (threeBytes .plain) 1 ⟨.Int16, .int 6⟩ =
    some (.fieldValue ⟨.Int16, .int 6⟩) :=
  C112_class_fails id _ 1 _ rfl (by decide) (by decide) (by decide)

/-- C112 is false of null strings: a null `String8` that is refused is read for the message, which is
undefined behaviour (the arrays that check the kinds are those with a type). -/
theorem C112_null_fails (narrow : Fl → Fl) (c : Arr) (hk : c.kind ≠ .String8) (as : List Any) (hlen : (⟨.String8, .str none⟩ :: as).length =
      c.values.length) (hst : c.style ≠ .anonymous) :
    allSetRaises narrow c (⟨.String8, .str none⟩ :: as) = some .ub := by
  unfold allSetRaises
  rw [if_neg (fun h => h hlen)]
  simp only [itemsSetRaises]
  rw [if_pos ⟨hst, fun h => hk h.symm⟩]
  rfl

example : allSetRaises id (threeBytes .plain)
    [⟨.String8, .str none⟩, ⟨.Int8, .int 5⟩, ⟨.Int8, .int 5⟩] = some .ub := by decide

/-- C112 is false of the order of the kinds: a string given to an item of kind `Int8` is reported as
an `Int8` where a string was expected. -/
theorem C112_kinds_fails :
    itemSetRaises id (threeBytes .published) 1 ⟨.String8, .str (some [65])⟩ =
      some (.anyType ⟨.String8, .Int8⟩) := by decide

end Verif.Raise
