import Verif.Emit.Model
import Verif.Any.Props
import Verif.Text.Props

/-! Property C96: the argument of an event reaches every subscribed sink unchanged. -/
namespace Verif.Emit
open Verif.Any (ITy Kind Fl Val Any Out Arg)
open Verif.Text (Buf)

/-! ### Specification -/

/-- What a value stands for, whatever its C++ type. -/
inductive Meaning
  | bool (b : Bool)
  | char (c : Nat)
  | number (v : Int)
  | float (x : Fl)
  | text (s : List Nat)
  | nullText

/-- The characters before the first NUL are the text of an array. -/
def meaning : TVal → Meaning
  | .bool b => .bool b
  | .char c => .char c
  | .int _ v => .number v
  | .enum _ v => .number v
  | .f32 x => .float x
  | .f64 x => .float x
  | .string none => .nullText
  | .string (some s) => .text s
  | .buffer _ b => .text (b.takeWhile (· ≠ 0))

/-- The C++ type of a value. -/
def TVal.ty : TVal → CTy
  | .bool _ => .bool
  | .char _ => .char
  | .int t _ => .int t
  | .enum u _ => .enum u
  | .f32 _ => .f32
  | .f64 _ => .f64
  | .string _ => .string
  | .buffer n _ => .buffer n

/-- A value its C++ type can have: a number in the range, a text terminated by a NUL. -/
def TVal.Ok : TVal → Prop
  | .int t v => t.Range v
  | .enum u v => u.Range v
  | .string (some s) => 0 ∉ s
  | .buffer n b => b.length = n + 1 ∧ 0 ∈ b
  | _ => True

/-- The C++ type is the one of the kind. -/
def Suits : CTy → Kind → Prop
  | .bool, k => k = .Bool
  | .char, k => k = .Char8
  | .int t, k => k.int = some t
  | .enum u, k => k.int = some u
  | .f32, k => k = .Float32
  | .f64, k => k = .Float64
  | .string, k => k = .String8
  | .buffer _, k => k = .String8

/-- An array for texts is long enough, and there is a text. -/
def Room (v : TVal) : CTy → Prop
  | .buffer n => ∃ s, meaning v = .text s ∧ s.length ≤ n
  | _ => True

/-- The integer type behind an integer or an enumeration. -/
def CTy.num : CTy → Option ITy
  | .int t => some t
  | .enum u => some u
  | _ => none

/-- Memory for arrays of each length. -/
def Space (g : Nat → Buf) : Prop := ∀ n, (g n).length = n + 1

/-! ### Lemmas -/

theorem ok_map {α β : Type} (f : α → β) (a : α) : (Out.ok a).map f = .ok (f a) := rfl

theorem takeWhile_text (s : List Nat) (h : 0 ∉ s) (r : List Nat) :
    (s ++ 0 :: r).takeWhile (· ≠ 0) = s := by
  induction s with
  | nil => simp
  | cons x s ih =>
    have hx : x ≠ 0 := fun e => h (by simp [e])
    have hs : 0 ∉ s := fun e => h (by simp [e])
    rw [List.cons_append, List.takeWhile_cons, if_pos (by simpa using hx), ih hs]

theorem takeWhile_noNul (b : List Nat) : 0 ∉ b.takeWhile (· ≠ 0) := by
  induction b with
  | nil => simp
  | cons x b ih =>
    rw [List.takeWhile_cons]
    by_cases hx : x = 0
    · simp [hx]
    · rw [if_pos (by simpa using hx)]
      intro h
      rcases List.mem_cons.1 h with h | h
      · exact hx h.symm
      · exact ih h

/-- Reading a text into an array keeps as much as there is room for. -/
theorem readBuffer_text {n : Nat} {g : Buf} (hg : g.length = n + 1) (s : List Nat) (hs : 0 ∉ s) :
    ∃ b, readBuffer n g (some s) = .ok (.buffer n b) ∧ b.takeWhile (· ≠ 0) = s.take n ∧
      b.length = n + 1 := by
  obtain ⟨b, h1, h2, _, r, h4⟩ := Verif.Text.C46_copyString g n (by omega) (some (s ++ [0]))
    (by intro v hv; cases hv; simp)
  have ht : Verif.Text.text (s ++ [0]) = s := takeWhile_text s hs []
  refine ⟨b, ?_, ?_, h2.trans hg⟩
  · simp only [readBuffer, Option.map_some, h1]
  · rw [h4]
    simp only [Option.map_some, Option.getD_some, ht]
    exact takeWhile_text _ (fun h => hs (List.mem_of_mem_take h)) r

theorem readBuffer_null {n : Nat} {g : Buf} (hg : g.length = n + 1) :
    ∃ b, readBuffer n g none = .ok (.buffer n b) ∧ b.takeWhile (· ≠ 0) = [] ∧
      b.length = n + 1 := by
  obtain ⟨b, h1, h2, _, r, h4⟩ := Verif.Text.C46_copyString g n (by omega) none
    (by intro v hv; cases hv)
  refine ⟨b, ?_, ?_, h2.trans hg⟩
  · simp only [readBuffer, Option.map_none, h1]
  · rw [h4]; simp

/-- Writing a number of an integer type to an `AnySimple` of an integer kind. -/
theorem make_int (narrow : Fl → Fl) (k : Kind) (t : ITy) (v : Int) (hk : k.isInt)
    (hv : t.Range v) :
    (k.Range v → make narrow k (.int t v) = .ok ⟨k, .int v⟩) ∧
    (¬ k.Range v → make narrow k (.int t v) = .throw) := by
  obtain ⟨T, hT⟩ := Option.isSome_iff_exists.mp hk
  obtain ⟨h1, h2⟩ := Verif.Any.conv_ok hv (Verif.Any.setTable_ok t k T hT)
  rw [Verif.Any.Kind.range_iff hT]
  constructor
  · intro h; simp only [make, Verif.Any.newValue, hT, h1 h]; rfl
  · intro h; simp only [make, Verif.Any.newValue, hT, h2 h]; rfl

/-- The `AnySimple` made of a value whose type is the one of the kind. -/
def holds (k : Kind) : TVal → Any
  | .bool b => ⟨k, .bool b⟩
  | .char c => ⟨k, .char c⟩
  | .int _ v => ⟨k, .int v⟩
  | .enum _ v => ⟨k, .int v⟩
  | .f32 x => ⟨k, .float x⟩
  | .f64 x => ⟨k, .float x⟩
  | .string s => ⟨k, .str s⟩
  | .buffer _ b => ⟨k, .str (some (b.takeWhile (· ≠ 0)))⟩

theorem toAny_suits (narrow : Fl → Fl) (k : Kind) (v : TVal) (h : Suits v.ty k) (hv : v.Ok) :
    toAny narrow k v = .ok (holds k v) := by
  cases v with
  | bool b => cases (h : k = .Bool); rfl
  | char c => cases (h : k = .Char8); rfl
  | int t v =>
    have h : k.int = some t := h
    exact (make_int narrow k t v (by simp [Verif.Any.Kind.isInt, h]) hv).1
      ((Verif.Any.Kind.range_iff h v).2 hv)
  | enum t v =>
    have h : k.int = some t := h
    exact (make_int narrow k t v (by simp [Verif.Any.Kind.isInt, h]) hv).1
      ((Verif.Any.Kind.range_iff h v).2 hv)
  | f32 x => cases (h : k = .Float32); rfl
  | f64 x => cases (h : k = .Float64); rfl
  | string s => cases (h : k = .String8); rfl
  | buffer n b =>
    cases (h : k = .String8)
    have hc : Verif.Text.cstr b = some (b.takeWhile (· ≠ 0)) := by
      unfold Verif.Text.cstr; rw [if_pos hv.2]
    simp only [toAny, hc, holds]
    rfl

/-- What a type of the kind reads from it. -/
theorem ofAny_suits (narrow : Fl → Fl) {g : Nat → Buf} (hg : Space g) (k : Kind) (v : TVal)
    (h : Suits v.ty k) (hv : v.Ok) (t : CTy) (ht : Suits t k) (hr : Room v t) :
    ∃ w, ofAny narrow g (holds k v) t = .ok w ∧ w.ty = t ∧ meaning w = meaning v := by
  cases t with
  | bool =>
    cases (ht : k = .Bool)
    cases v with
    | bool b => exact ⟨.bool b, rfl, rfl, rfl⟩
    | _ => cases h
  | char =>
    cases (ht : k = .Char8)
    cases v with
    | char b => exact ⟨.char b, rfl, rfl, rfl⟩
    | _ => cases h
  | int t =>
    have ht : k.int = some t := ht
    have hk : k.isInt := by simp [Verif.Any.Kind.isInt, ht]
    cases v with
    | int t' v =>
      have h : k.int = some t' := h
      have e : t' = t := Option.some.inj (h.symm.trans ht)
      subst e
      refine ⟨.int t' v, ?_, rfl, rfl⟩
      have hkv := (Verif.Any.Kind.range_iff h v).2 hv
      simp only [ofAny, holds, (Verif.Any.C50_get k v t' hk hkv).1 hv, ok_map]
    | enum t' v =>
      have h : k.int = some t' := h
      have e : t' = t := Option.some.inj (h.symm.trans ht)
      subst e
      refine ⟨.int t' v, ?_, rfl, rfl⟩
      have hkv := (Verif.Any.Kind.range_iff h v).2 hv
      simp only [ofAny, holds, (Verif.Any.C50_get k v t' hk hkv).1 hv, ok_map]
    | bool _ => cases (h : k = .Bool); cases ht
    | char _ => cases (h : k = .Char8); cases ht
    | f32 _ => cases (h : k = .Float32); cases ht
    | f64 _ => cases (h : k = .Float64); cases ht
    | string _ => cases (h : k = .String8); cases ht
    | buffer _ _ => cases (h : k = .String8); cases ht
  | enum t =>
    have ht : k.int = some t := ht
    have hk : k.isInt := by simp [Verif.Any.Kind.isInt, ht]
    cases v with
    | int t' v =>
      have h : k.int = some t' := h
      have e : t' = t := Option.some.inj (h.symm.trans ht)
      subst e
      refine ⟨.enum t' v, ?_, rfl, rfl⟩
      have hkv := (Verif.Any.Kind.range_iff h v).2 hv
      simp only [ofAny, holds, (Verif.Any.C50_get k v t' hk hkv).1 hv, ok_map]
    | enum t' v =>
      have h : k.int = some t' := h
      have e : t' = t := Option.some.inj (h.symm.trans ht)
      subst e
      refine ⟨.enum t' v, ?_, rfl, rfl⟩
      have hkv := (Verif.Any.Kind.range_iff h v).2 hv
      simp only [ofAny, holds, (Verif.Any.C50_get k v t' hk hkv).1 hv, ok_map]
    | bool _ => cases (h : k = .Bool); cases ht
    | char _ => cases (h : k = .Char8); cases ht
    | f32 _ => cases (h : k = .Float32); cases ht
    | f64 _ => cases (h : k = .Float64); cases ht
    | string _ => cases (h : k = .String8); cases ht
    | buffer _ _ => cases (h : k = .String8); cases ht
  | f32 =>
    cases (ht : k = .Float32)
    cases v with
    | f32 x => exact ⟨.f32 x, rfl, rfl, rfl⟩
    | _ => cases h
  | f64 =>
    cases (ht : k = .Float64)
    cases v with
    | f64 x => exact ⟨.f64 x, rfl, rfl, rfl⟩
    | _ => cases h
  | string =>
    cases (ht : k = .String8)
    cases v with
    | string s => exact ⟨.string s, rfl, rfl, by cases s <;> rfl⟩
    | buffer n b => exact ⟨.string (some (b.takeWhile (· ≠ 0))), rfl, rfl, rfl⟩
    | _ => cases h
  | buffer n =>
    cases (ht : k = .String8)
    obtain ⟨s, hs, hl⟩ := hr
    cases v with
    | string s' =>
      cases s' with
      | none => cases hs
      | some s' =>
        cases hs
        obtain ⟨b, h1, h2, _⟩ := readBuffer_text (hg n) s hv
        refine ⟨.buffer n b, h1, rfl, ?_⟩
        simp only [meaning, h2, List.take_of_length_le hl]
    | buffer m b =>
      have hs : b.takeWhile (· ≠ 0) = s := by simpa [meaning] using hs
      obtain ⟨b', h1, h2, _⟩ := readBuffer_text (hg n) s (hs ▸ takeWhile_noNul b)
      refine ⟨.buffer n b', ?_, rfl, ?_⟩
      · simp only [ofAny, holds, hs]; exact h1
      · simp only [meaning, h2, List.take_of_length_le hl, hs]
    | _ => cases h

/-! ### C96 -/

/-- **C96** Whatever value a source emits, if the C++ types of the source and of the subscribed
sinks are those of the kind they declare, and arrays for texts are long enough: every sink is
notified, its callback gets a value of its own type that stands for the same as the one emitted, and
the emission ends normally. -/
theorem C96_same (narrow : Fl → Fl) {g : Nat → Buf} (hg : Space g) (k : Kind) (v : TVal)
    (h : Suits v.ty k) (hv : v.Ok) (sinks : List Sink)
    (hs : ∀ s ∈ sinks, s.raises = false ∧ ∃ t, s.ty = some t ∧ Suits t k ∧ Room v t) :
    (emit narrow g k (some v) sinks).2 = .ok () ∧
    (emit narrow g k (some v) sinks).1.map (Option.map meaning) =
      sinks.map (fun _ => some (meaning v)) ∧
    (emit narrow g k (some v) sinks).1.map (Option.map TVal.ty) = sinks.map (·.ty) := by
  simp only [emit, toAny_suits narrow k v h hv]
  induction sinks with
  | nil => exact ⟨rfl, rfl, rfl⟩
  | cons s ss ih =>
    obtain ⟨hra, t, ht, hst, hro⟩ := hs s List.mem_cons_self
    obtain ⟨i1, i2, i3⟩ := ih fun s' hs' => hs s' (List.mem_cons_of_mem _ hs')
    obtain ⟨w, h1, h2, h3⟩ := ofAny_suits narrow hg k v h hv t hst hro
    have hn : notify narrow g s (holds k v) = .ok (some w) := by
      simp only [notify, ht, h1, ok_map]
    simp only [deliver, hn, hra, Bool.false_eq_true, if_false, List.map_cons, i1, i2, i3]
    refine ⟨trivial, ?_, ?_⟩
    · simp only [Option.map_some, h3]
    · simp only [Option.map_some, h2, ht]

/-- **C96** An event without argument notifies every subscribed sink without argument. -/
theorem C96_void (narrow : Fl → Fl) (g : Nat → Buf) (k : Kind) (sinks : List Sink)
    (hs : ∀ s ∈ sinks, s.raises = false ∧ s.ty = none) :
    emit narrow g k none sinks = (sinks.map (fun _ => none), .ok ()) := by
  simp only [emit]
  induction sinks with
  | nil => rfl
  | cons s ss ih =>
    obtain ⟨hra, ht⟩ := hs s List.mem_cons_self
    have ih := ih fun s' hs' => hs s' (List.mem_cons_of_mem _ hs')
    have hn : notify narrow g s (Verif.Any.ofKind .None) = .ok none := by
      simp [notify, ht, Verif.Any.ofKind]
    simp only [deliver, hn, hra, Bool.false_eq_true, if_false, ih, List.map_cons]

/-- Reading a number as an integer type or an enumeration. -/
theorem ofAny_num (narrow : Fl → Fl) (g : Nat → Buf) (k : Kind) (hk : k.isInt) (v : Int)
    (hv : k.Range v) (t : CTy) (i : ITy) (ht : t.num = some i) :
    (i.Range v → ∃ w, ofAny narrow g ⟨k, .int v⟩ t = .ok w ∧ w.ty = t ∧ meaning w = .number v) ∧
    (¬ i.Range v → ofAny narrow g ⟨k, .int v⟩ t = .throw) := by
  cases t with
  | int t =>
    cases ht
    obtain ⟨h1, h2⟩ := Verif.Any.C50_get k v i hk hv
    exact ⟨fun h => ⟨.int i v, by simp only [ofAny, h1 h, ok_map], rfl, rfl⟩,
      fun h => by simp only [ofAny, h2 h]; rfl⟩
  | enum u =>
    cases ht
    obtain ⟨h1, h2⟩ := Verif.Any.C50_get k v i hk hv
    exact ⟨fun h => ⟨.enum i v, by simp only [ofAny, h1 h, ok_map], rfl, rfl⟩,
      fun h => by simp only [ofAny, h2 h]; rfl⟩
  | _ => cases ht

/-- **C96** Numbers, whatever integer or enumeration types the source and the sinks have: a number
the kind cannot hold is not emitted to anyone, and `Emit` raises. Otherwise the sinks whose type can
hold the number get that number, up to the first one that cannot hold it or raises: there `Emit`
raises and no other sink is notified. -/
theorem C96_number (narrow : Fl → Fl) (g : Nat → Buf) (k : Kind) (hk : k.isInt) (v : TVal)
    (t : ITy) (x : Int) (hv : v = .int t x ∨ v = .enum t x) (hx : t.Range x)
    (before after : List Sink) (s : Sink)
    (hb : ∀ s ∈ before, s.raises = false ∧ ∃ t i, s.ty = some t ∧ t.num = some i ∧ i.Range x) :
    (¬ k.Range x → emit narrow g k (some v) before = ([], .throw)) ∧
    (k.Range x →
      ((emit narrow g k (some v) before).1.map (Option.map meaning) =
          before.map (fun _ => some (.number x)) ∧
        (emit narrow g k (some v) before).2 = .ok ()) ∧
      (∀ t i, s.ty = some t → t.num = some i → ¬ i.Range x →
        emit narrow g k (some v) (before ++ s :: after) =
          ((emit narrow g k (some v) before).1, .throw)) ∧
      (∀ t i, s.ty = some t → t.num = some i → i.Range x → s.raises = true →
        ∃ w, meaning w = .number x ∧
        emit narrow g k (some v) (before ++ s :: after) =
          ((emit narrow g k (some v) before).1 ++ [some w], .throw))) := by
  have hto : (k.Range x → toAny narrow k v = .ok ⟨k, .int x⟩) ∧
      (¬ k.Range x → toAny narrow k v = .throw) := by
    rcases hv with rfl | rfl <;> exact make_int narrow k t x hk hx
  constructor
  · intro hn; simp only [emit, hto.2 hn]
  · intro hkx
    simp only [emit, hto.1 hkx]
    induction before with
    | nil =>
      refine ⟨⟨rfl, rfl⟩, ?_, ?_⟩
      · intro t i ht hi hr
        have := (ofAny_num narrow g k hk x hkx t i hi).2 hr
        simp only [List.nil_append, deliver, notify, ht, this]; rfl
      · intro t i ht hi hr hra
        obtain ⟨w, h1, _, h3⟩ := (ofAny_num narrow g k hk x hkx t i hi).1 hr
        refine ⟨w, h3, ?_⟩
        simp only [List.nil_append, deliver, notify, ht, h1, ok_map, hra, if_true]
    | cons b bs ih =>
      obtain ⟨hra, t, i, ht, hi, hr⟩ := hb b List.mem_cons_self
      obtain ⟨⟨i1, i2⟩, i3, i4⟩ := ih fun s' hs' => hb s' (List.mem_cons_of_mem _ hs')
      obtain ⟨w, h1, _, h3⟩ := (ofAny_num narrow g k hk x hkx t i hi).1 hr
      have hn : notify narrow g b ⟨k, .int x⟩ = .ok (some w) := by
        simp only [notify, ht, h1, ok_map]
      simp only [List.cons_append, deliver, hn, hra, Bool.false_eq_true, if_false, List.map_cons,
        Option.map_some, h3, i1, i2]
      refine ⟨⟨trivial, trivial⟩, ?_, ?_⟩
      · intro t i ht hi hr
        rw [i3 t i ht hi hr]
      · intro t i ht hi hr hra
        obtain ⟨w', h4, h5⟩ := i4 t i ht hi hr hra
        exact ⟨w', h4, by rw [h5]⟩

/-- **C96** Texts: a sink with an array of `n + 1` characters gets the first `n` characters of the
text, a null string is the empty text there. -/
theorem C96_text (narrow : Fl → Fl) {g : Nat → Buf} (hg : Space g) (v : TVal)
    (h : Suits v.ty .String8) (hv : v.Ok) (n : Nat) (s : Sink) (hs : s.ty = some (.buffer n)) :
    ∃ b, (emit narrow g .String8 (some v) [s]).1 = [some (.buffer n b)] ∧ b.length = n + 1 ∧
      meaning (.buffer n b) = .text (match meaning v with | .text s => s.take n | _ => []) := by
  have key : ∀ o : Option (List Nat), (∀ s, o = some s → 0 ∉ s) →
      ∃ b, readBuffer n (g n) o = .ok (.buffer n b) ∧
      b.takeWhile (· ≠ 0) = (o.getD []).take n ∧ b.length = n + 1 := by
    intro o ho
    cases o with
    | none =>
      obtain ⟨b, h1, h2, h3⟩ := readBuffer_null (hg n)
      exact ⟨b, h1, by simpa using h2, h3⟩
    | some s => exact readBuffer_text (hg n) s (ho s rfl)
  have fin : ∀ o : Option (List Nat), holds .String8 v = ⟨.String8, .str o⟩ →
      (∀ s, o = some s → 0 ∉ s) →
      ∃ b, (emit narrow g .String8 (some v) [s]).1 = [some (.buffer n b)] ∧ b.length = n + 1 ∧
        meaning (.buffer n b) = .text ((o.getD []).take n) := by
    intro o ho hno
    obtain ⟨b, h1, h2, h3⟩ := key o hno
    refine ⟨b, ?_, h3, by simp only [meaning, h2]⟩
    have hn : notify narrow g s (holds .String8 v) = .ok (some (.buffer n b)) := by
      simp only [notify, hs, ho, ofAny, Verif.Any.getString, h1, ok_map]
    simp only [emit, toAny_suits narrow .String8 v h hv, deliver, hn]
    split <;> rfl
  cases v with
  | string o =>
    cases o with
    | none => simpa [meaning] using fin none rfl (by simp)
    | some s => simpa [meaning] using fin (some s) rfl (by intro s' e; cases e; exact hv)
  | buffer m b =>
    have := fin (some (b.takeWhile (· ≠ 0))) rfl (by intro s' e; cases e; exact takeWhile_noNul b)
    simpa [meaning] using this
  | bool _ => cases h
  | char _ => cases h
  | int t _ => cases (h : Kind.int .String8 = some t)
  | enum t _ => cases (h : Kind.int .String8 = some t)
  | f32 _ => cases h
  | f64 _ => cases h

/-! ### Concrete cases -/

/-- Memory for the examples. -/
def exG : Nat → Buf := fun n => List.replicate (n + 1) 7

theorem exG_space : Space exG := fun n => by simp [exG]

/-- An enumeration emitted to an enumeration and an integer sink. -/
example : Suits (TVal.enum .i32 3).ty .Int32 ∧ (TVal.enum .i32 3).Ok ∧
    ∀ s ∈ [Sink.mk (some (.enum .i32)) .Int32 false, ⟨some (.int .i32), .Int32, false⟩],
      s.raises = false ∧ ∃ t, s.ty = some t ∧ Suits t .Int32 ∧ Room (.enum .i32 3) t := by
  refine ⟨rfl, ⟨by decide, by decide⟩, ?_⟩
  intro s hs
  simp only [List.mem_cons, List.not_mem_nil, or_false] at hs
  rcases hs with rfl | rfl
  · exact ⟨rfl, _, rfl, rfl, trivial⟩
  · exact ⟨rfl, _, rfl, rfl, trivial⟩

example : emit id exG .Int32 (some (.enum .i32 3))
    [⟨some (.enum .i32), .Int32, false⟩, ⟨some (.int .i32), .Int32, false⟩] =
    ([some (.enum .i32 3), some (.int .i32 3)], .ok ()) := by decide

/-- A text cut in an array of three characters, kept in one of five. -/
example : emit id exG .String8 (some (.string (some [65, 66, 67])))
    [⟨some (.buffer 2), .String8, false⟩, ⟨some (.buffer 4), .String8, false⟩] =
    ([some (.buffer 2 [65, 66, 0]), some (.buffer 4 [65, 66, 67, 0, 7])], .ok ()) := by decide

/-- **C96 (fails)** The kinds are compared when a sink is subscribed, not the C++ types: a sink for
`Int8` that declares `Int32` is accepted, and an emission of 300 raises there, so that the sink after
it, of the right type, is not notified; a text that does not fit in an array is cut without notice; a
character array without NUL is read past its end. -/
theorem C96_fails :
    emit id exG .Int32 (some (.int .i32 300))
      [⟨some (.int .i32), .Int32, false⟩, ⟨some (.int .i8), .Int32, false⟩,
       ⟨some (.int .i32), .Int32, false⟩] = ([some (.int .i32 300)], .throw) ∧
    (∃ b, emit id exG .String8 (some (.string (some [65, 66, 67])))
      [⟨some (.buffer 2), .String8, false⟩] = ([some (.buffer 2 b)], .ok ()) ∧
      b.takeWhile (· ≠ 0) = [65, 66]) ∧
    emit id exG .String8 (some (.buffer 1 [65, 66])) [⟨some .string, .String8, false⟩] =
      ([], .ub) :=
  ⟨by decide, ⟨[65, 66, 0], by decide, by decide⟩, by decide⟩

end Verif.Emit
