import Verif.Python.HintsLemmas

/-! Lemmas for `HintsProps.lean`: what `generate` writes, as lines and as declarations. -/
namespace Verif.Python.Hints
open Verif.Path (Str)
open Verif.Python.Class (Ifc Lawful Above)

/-! ### Lines with their nesting -/

/-- Lines as `generate` writes them. -/
inductive Out
  | row (i : Item)
  | blank
  | cls (name : Str) (bases : List Str) (body : List Out)

mutual
/-- The lines. -/
def Out.rows (n : Nat) : Out → List (Option (Nat × Item))
  | .row i => [some (n, i)]
  | .blank => [none]
  | .cls a b body => some (n, .cls a b) :: rowsAll (n + 4) body
/-- The lines. -/
def rowsAll (n : Nat) : List Out → List (Option (Nat × Item))
  | [] => []
  | o :: l => o.rows n ++ rowsAll n l
end

/-- The statement of a line. -/
def Item.stmt : Item → Stmt
  | .imp m => .imp m
  | .cls a b => .cls a b []
  | .ann a t => .ann a t
  | .op a => .op a
  | .pass => .pass
  | .doc s => .doc s

mutual
/-- The statements. -/
def Out.strip : Out → List Stmt
  | .row i => [i.stmt]
  | .blank => []
  | .cls a b body => [.cls a b (stripAll body)]
/-- The statements. -/
def stripAll : List Out → List Stmt
  | [] => []
  | o :: l => o.strip ++ stripAll l
end

mutual
/-- The lines can be read back. -/
def Out.Fine : Out → Prop
  | .row i => Good i ∧ ∀ a b, i ≠ .cls a b
  | .blank => True
  | .cls a b body => Good (.cls a b) ∧ stripAll body ≠ [] ∧ FineAll body
/-- The lines can be read back. -/
def FineAll : List Out → Prop
  | [] => True
  | o :: l => o.Fine ∧ FineAll l
end

theorem rowsAll_append (n : Nat) (a b : List Out) : rowsAll n (a ++ b) = rowsAll n a ++ rowsAll n b := by
  induction a with
  | nil => rw [rowsAll]; rfl
  | cons o a ih => rw [List.cons_append, rowsAll, rowsAll, ih, List.append_assoc]

theorem stripAll_append (a b : List Out) : stripAll (a ++ b) = stripAll a ++ stripAll b := by
  induction a with
  | nil => rw [stripAll]; rfl
  | cons o a ih => rw [List.cons_append, stripAll, stripAll, ih, List.append_assoc]

theorem fineAll_append {a b : List Out} (ha : FineAll a) (hb : FineAll b) : FineAll (a ++ b) := by
  induction a with
  | nil => exact hb
  | cons o a ih =>
    rw [FineAll] at ha
    rw [List.cons_append, FineAll]
    exact ⟨ha.1, ih ha.2⟩

theorem fineAll_flatMap {α : Type} {l : List α} {f : α → List Out} (h : ∀ a ∈ l, FineAll (f a)) :
    FineAll (l.flatMap f) := by
  induction l with
  | nil => simp [FineAll]
  | cons a l ih =>
    rw [List.flatMap_cons]
    exact fineAll_append (h a (by simp)) (ih fun b hb => h b (by simp [hb]))

theorem linesAll_append (n : Nat) (a b : List Stmt) :
    linesAll n (a ++ b) = linesAll n a ++ linesAll n b := by
  induction a with
  | nil => rw [linesAll]; rfl
  | cons o a ih => rw [List.cons_append, linesAll, linesAll, ih, List.append_assoc]

theorem fullAll_append {a b : List Stmt} (ha : FullAll a) (hb : FullAll b) : FullAll (a ++ b) := by
  induction a with
  | nil => exact hb
  | cons o a ih =>
    rw [FullAll] at ha
    rw [List.cons_append, FullAll]
    exact ⟨ha.1, ih ha.2⟩

mutual
theorem rows_lines (n : Nat) : ∀ o : Out, (o.rows n).filterMap id = linesAll n o.strip
  | .row i => by
    rw [Out.rows, Out.strip]
    cases i <;> simp [Item.stmt, linesAll, Stmt.lines]
  | .blank => by rw [Out.rows, Out.strip, linesAll]; rfl
  | .cls a b body => by
    rw [Out.rows, Out.strip, linesAll, linesAll, Stmt.lines, List.append_nil, ← rowsAll_lines (n + 4) body]
    rfl
theorem rowsAll_lines (n : Nat) : ∀ l : List Out, (rowsAll n l).filterMap id = linesAll n (stripAll l)
  | [] => by rw [rowsAll, stripAll, linesAll]; rfl
  | o :: l => by
    rw [rowsAll, stripAll, linesAll_append, List.filterMap_append, rows_lines n o, rowsAll_lines n l]
end

mutual
theorem rows_good : ∀ (o : Out) (n : Nat), o.Fine → (∀ x ∈ o.rows n, GoodRow x) ∧ FullAll o.strip
  | .row i, n, h => by
    rw [Out.Fine] at h
    refine ⟨?_, ?_⟩
    · rw [Out.rows]
      intro x hx k j e
      rw [List.mem_singleton.1 hx] at e
      cases e
      exact h.1
    · rw [Out.strip, FullAll, FullAll]
      refine ⟨?_, trivial⟩
      cases i with
      | cls a b => exact absurd rfl (h.2 a b)
      | _ => simp [Item.stmt, Stmt.Full]
  | .blank, n, _ => by
    refine ⟨?_, by rw [Out.strip, FullAll]; trivial⟩
    rw [Out.rows]
    intro x hx k j e
    rw [List.mem_singleton.1 hx] at e
    cases e
  | .cls a b body, n, h => by
    rw [Out.Fine] at h
    have hb := rowsAll_good body (n + 4) h.2.2
    refine ⟨?_, ?_⟩
    · rw [Out.rows]
      intro x hx
      rcases List.mem_cons.1 hx with rfl | hx
      · intro k j e
        cases e
        exact h.1
      · exact hb.1 x hx
    · rw [Out.strip, FullAll, FullAll, Stmt.Full]
      exact ⟨⟨h.2.1, hb.2⟩, trivial⟩
theorem rowsAll_good : ∀ (l : List Out) (n : Nat), FineAll l →
    (∀ x ∈ rowsAll n l, GoodRow x) ∧ FullAll (stripAll l)
  | [], n, _ => by rw [rowsAll, stripAll, FullAll]; exact ⟨by simp, trivial⟩
  | o :: l, n, h => by
    rw [FineAll] at h
    have h1 := rows_good o n h.1
    have h2 := rowsAll_good l n h.2
    rw [rowsAll, stripAll]
    refine ⟨fun x hx => ?_, fullAll_append h1.2 h2.2⟩
    rcases List.mem_append.1 hx with hx | hx
    · exact h1.1 x hx
    · exact h2.1 x hx
end

/-- Lines that can be read back are read as their statements. -/
theorem statements_rows (l : List Out) (h : FineAll l) :
    statements (render (rowsAll 0 l)) = some (stripAll l) :=
  statements_render _ _ (rowsAll_good l 0 h).1 (rowsAll_lines 0 l) (rowsAll_good l 0 h).2

/-! ### What `generate` writes -/

/-- A line `name: interface`. -/
def attrOut (n : Str) (i : Ifc) : Out := .row (.ann n (text i))

/-- The lines of a component before its fields. -/
def componentOuts (h : Head) : List Out :=
  (if h.inst .IAggregate then h.references.flatMap fun n => [attrOut ('_' :: n) .IReference, .blank] else []) ++
  (if h.inst .IDynamicInvocation then
    h.operations.flatMap (fun n => [.row (.op n)]) ++ h.properties.flatMap fun n => [attrOut n .IProperty]
   else []) ++
  (if h.inst .IEventConsumer then h.sinks.flatMap fun n => [attrOut n .IEventSink, .blank] else []) ++
  (if h.inst .IEventProvider then h.sources.flatMap fun n => [attrOut n .IEventSource, .blank] else [])

/-- The body of a class. -/
def bodyOuts (body : List Out) : List Out := if body.isEmpty then [.row .pass] else body

/-- The name of the class of an object. -/
def className (n : Str) : Str := '_' :: '_' :: n

/-- The class of an object and what follows it. -/
def wrapOuts (h : Head) (body : List Out) : List Out :=
  [.cls (className h.name) ((bases h.inst).map text) (bodyOuts body), .blank,
    .row (.ann h.name (className h.name))] ++
  (if h.desc.isEmpty then [] else [.row (.doc h.desc)]) ++ [.blank]

mutual
/-- The lines of the body of the class of an object. -/
def memberOuts : Obj → List Out
  | .mk h fields containers =>
    (if h.inst .IComponent then componentOuts h else []) ++
    (if h.inst .IComponent then outsAll fields else []) ++
    (if h.inst .IComposite then outsBoxes containers else []) ++
    (if h.inst .IEntryPointPublisher then h.entryPoints.flatMap fun n => [attrOut n .IEntryPoint] else []) ++
    (if nested h.inst then outsAll fields else [])
/-- The lines of objects. -/
def outsAll : List Obj → List Out
  | [] => []
  | o :: l => wrapOuts o.head (memberOuts o) ++ outsAll l
/-- The lines of containers. -/
def outsBoxes : List Box → List Out
  | [] => []
  | .mk n l :: bs => [attrOut ('_' :: n) .IContainer, .blank] ++ outsAll l ++ outsBoxes bs
end

/-- Spaces. -/
def sp (n : Nat) : Str := List.replicate n ' '

/-- The text of lines. -/
def out (n : Nat) (l : List Out) : Str := render (rowsAll n l)

theorem render_append (a b : List (Option (Nat × Item))) : render (a ++ b) = render a ++ render b := by
  simp [render]

theorem out_append (n : Nat) (a b : List Out) : out n (a ++ b) = out n a ++ out n b := by
  simp only [out, rowsAll_append, render_append]

theorem out_flatMap {α : Type} (n : Nat) (l : List α) (f : α → List Out) :
    out n (l.flatMap f) = l.flatMap fun a => out n (f a) := by
  induction l with
  | nil => rfl
  | cons a l ih => rw [List.flatMap_cons, List.flatMap_cons, out_append, ih]

theorem flatMap_code (s : Str) : (s.map Tok.ch).flatMap Tok.code = s := by
  induction s with
  | nil => rfl
  | cons c s ih => rw [List.map_cons, List.flatMap_cons, ih]; rfl

theorem nl : "\n".toList = ['\n'] := by decide +kernel

theorem indent_sp (n : Nat) : sp n ++ INDENT = sp (n + 4) := by
  have : INDENT = List.replicate 4 ' ' := by decide +kernel
  rw [this, sp, sp, List.replicate_append_replicate]

theorem rowCode (n : Nat) (i : Item) :
    (rowToks (some (n, i))).flatMap Tok.code = sp n ++ (toks i).flatMap Tok.code := by
  have : List.replicate n (Tok.ch ' ') = (sp n).map .ch := by simp [sp]
  rw [rowToks, List.flatMap_append, this, flatMap_code]

theorem out_row (n : Nat) (i : Item) (hd : ∀ s, i ≠ .doc s) :
    out n [.row i] = sp n ++ code i ++ ['\n'] := by
  rw [out, rowsAll, rowsAll, Out.rows, List.append_nil]
  show List.flatMap _ [some (n, i)] = _
  rw [List.flatMap_cons, List.flatMap_nil, List.append_nil, rowCode, toks_code hd, flatMap_code]

theorem out_doc (n : Nat) (s : Str) :
    out n [.row (.doc s)] = sp n ++ ("\"\"\"".toList ++ s ++ "\"\"\"".toList) ++ ['\n'] := by
  rw [out, rowsAll, rowsAll, Out.rows, List.append_nil]
  show List.flatMap _ [some (n, Item.doc s)] = _
  rw [List.flatMap_cons, List.flatMap_nil, List.append_nil, rowCode]
  show sp n ++ List.flatMap Tok.code [.str s] ++ ['\n'] = _
  rw [List.flatMap_cons, List.flatMap_nil, List.append_nil]
  rfl

theorem out_blank (n : Nat) : out n [.blank] = ['\n'] := by
  rw [out, rowsAll, rowsAll, Out.rows, List.append_nil]
  rfl

theorem out_cls (n : Nat) (a : Str) (b : List Str) (body : List Out) :
    out n [.cls a b body] = sp n ++ code (.cls a b) ++ ['\n'] ++ out (n + 4) body := by
  rw [out, rowsAll, rowsAll, Out.rows, List.append_nil]
  show render ([some (n, .cls a b)] ++ rowsAll (n + 4) body) = _
  rw [render_append]
  have := out_row n (.cls a b) (fun s e => nomatch e)
  rw [out, rowsAll, rowsAll, Out.rows, List.append_nil] at this
  rw [this]
  rfl

theorem out_nil (n : Nat) : out n [] = [] := by rw [out, rowsAll]; rfl

theorem out_cons (n : Nat) (o : Out) (l : List Out) : out n (o :: l) = out n [o] ++ out n l := by
  rw [← out_append]; rfl

theorem out_isEmpty (n : Nat) (l : List Out) : (out n l).isEmpty = l.isEmpty := by
  cases l with
  | nil => rw [out_nil]; rfl
  | cons o l =>
    rw [out_cons]
    cases o with
    | row i =>
      by_cases hd : ∃ s, i = .doc s
      · obtain ⟨s, rfl⟩ := hd
        rw [out_doc]; simp
      · rw [out_row n i (fun s e => hd ⟨s, e⟩)]; simp
    | blank => rw [out_blank]; rfl
    | cls a b body => rw [out_cls]; simp

theorem out_attr (n : Nat) (a : Str) (i : Ifc) : attrLine (sp n) a i = out n [attrOut a i] := by
  rw [attrOut, out_row _ _ (by intro s e; cases e), attrLine, nl]
  show _ = sp n ++ (a ++ ": ".toList ++ text i) ++ ['\n']
  simp only [List.append_assoc]

theorem out_attr_blank (n : Nat) (a : Str) (i : Ifc) :
    attrLine (sp n) a i ++ blank = out n [attrOut a i, .blank] := by
  rw [out_cons, out_blank, out_attr, blank, nl]

theorem out_op (n : Nat) (a : Str) : operationLine (sp n) a = out n [.row (.op a)] := by
  rw [out_row _ _ (by intro s e; cases e), operationLine]
  show _ = sp n ++ ("def ".toList ++ a ++ "(self, ): ...".toList) ++ ['\n']
  rw [show "): ...\n".toList = "): ...".toList ++ ['\n'] by decide +kernel,
    show "(self, ): ...".toList = "(self, ".toList ++ "): ...".toList by decide +kernel]
  simp only [List.append_assoc]

theorem out_ite (n : Nat) (b : Bool) (l : List Out) :
    out n (if b then l else []) = if b then out n l else [] := by
  cases b
  · exact out_nil n
  · rfl

theorem componentBody_outs (n : Nat) (h : Head) (hp : h.published = true) :
    componentBody (sp n) h = some (out n (componentOuts h)) := by
  have e1 : h.references.flatMap (fun m => attrLine (sp n) ('_' :: m) .IReference ++ blank) =
      out n (h.references.flatMap fun m => [attrOut ('_' :: m) .IReference, .blank]) := by
    rw [out_flatMap]; simp only [out_attr_blank]
  have e2 : h.operations.flatMap (operationLine (sp n)) =
      out n (h.operations.flatMap fun m => [.row (.op m)]) := by
    rw [out_flatMap]
    congr 1
    funext m
    exact out_op n m
  have e3 : h.properties.flatMap (fun m => attrLine (sp n) m .IProperty) =
      out n (h.properties.flatMap fun m => [attrOut m .IProperty]) := by
    rw [out_flatMap]; simp only [out_attr]
  have e4 : h.sinks.flatMap (fun m => attrLine (sp n) m .IEventSink ++ blank) =
      out n (h.sinks.flatMap fun m => [attrOut m .IEventSink, .blank]) := by
    rw [out_flatMap]; simp only [out_attr_blank]
  have e5 : h.sources.flatMap (fun m => attrLine (sp n) m .IEventSource ++ blank) =
      out n (h.sources.flatMap fun m => [attrOut m .IEventSource, .blank]) := by
    rw [out_flatMap]; simp only [out_attr_blank]
  unfold componentBody componentOuts
  rw [e1, e2, e3, e4, e5, out_append, out_append, out_append, out_ite, out_ite, out_ite, out_ite,
    out_append, hp]
  cases h.inst .IDynamicInvocation <;> rfl

theorem bases_text (inst : Ifc → Bool) :
    basesText inst = ((bases inst).map text).flatMap (· ++ ", ".toList) := by
  rw [basesText, List.flatMap_map]

/-- The lines of the class of the simulator. -/
def simOuts (h : Head) (body : List Out) : List Out :=
  [.cls "Simulator".toList ((bases h.inst).map text) (bodyOuts body), .blank]

theorem body_out (n : Nat) (body : List Out) :
    (if (out (n + 4) body).isEmpty then sp n ++ INDENT ++ "pass\n".toList else out (n + 4) body) =
      out (n + 4) (bodyOuts body) := by
  rw [out_isEmpty, bodyOuts]
  cases body.isEmpty
  · rfl
  · rw [if_pos rfl, if_pos rfl, indent_sp, out_row _ _ (by intro s e; cases e)]
    show _ = _ ++ "pass".toList ++ _
    rw [show "pass\n".toList = "pass".toList ++ ['\n'] by decide +kernel, List.append_assoc]

theorem wrap_sim (n : Nat) (h : Head) (hs : h.inst .ISimulator = true) (body : List Out) :
    wrap (sp n) h (out (n + 4) body) = out n (simOuts h body) := by
  unfold wrap
  rw [if_pos hs]
  rw [body_out, simOuts, out_cons, out_blank, out_cls, nl, bases_text,
    show "class Simulator(".toList = "class ".toList ++ "Simulator".toList ++ "(".toList by decide +kernel,
    show "):\n".toList = "):".toList ++ ['\n'] by decide +kernel]
  show _ = sp n ++ ("class ".toList ++ "Simulator".toList ++ "(".toList ++ _ ++ "):".toList) ++ ['\n'] ++
    out (n + 4) (bodyOuts body) ++ ['\n']
  simp only [List.append_assoc]

theorem wrap_obj (n : Nat) (h : Head) (hs : h.inst .ISimulator = false) (body : List Out) :
    wrap (sp n) h (out (n + 4) body) = out n (wrapOuts h body) := by
  unfold wrap
  rw [if_neg (by rw [hs]; exact Bool.false_ne_true)]
  have hdoc : (if h.desc.isEmpty then [] else sp n ++ "\"\"\"".toList ++ h.desc ++ "\"\"\"\n".toList) =
      out n (if h.desc.isEmpty then [] else [.row (.doc h.desc)]) := by
    cases h.desc.isEmpty
    · show sp n ++ "\"\"\"".toList ++ h.desc ++ "\"\"\"\n".toList = out n [.row (.doc h.desc)]
      rw [out_doc, show "\"\"\"\n".toList = "\"\"\"".toList ++ ['\n'] by decide +kernel]
      simp only [List.append_assoc]
    · exact (out_nil n).symm
  rw [body_out, hdoc, wrapOuts, out_append, out_append, out_cons, out_cls, out_cons, out_blank,
    out_row _ _ (by intro s e; cases e), nl, bases_text,
    show "class __".toList = "class ".toList ++ ['_', '_'] by decide +kernel,
    show ": __".toList = ": ".toList ++ ['_', '_'] by decide +kernel,
    show "):\n".toList = "):".toList ++ ['\n'] by decide +kernel]
  show _ = sp n ++ ("class ".toList ++ (['_', '_'] ++ h.name) ++ "(".toList ++ _ ++ "):".toList) ++ ['\n'] ++
    out (n + 4) (bodyOuts body) ++ (['\n'] ++ (sp n ++ (h.name ++ ": ".toList ++ (['_', '_'] ++ h.name)) ++ ['\n'])) ++
    _ ++ ['\n']
  simp only [List.append_assoc]

/-! ### Conditions on one object -/

theorem Deep.here {o : Obj} (h : Deep o) : Local o := h o .self
theorem Deep.has {o p : Obj} (h : Deep o) (hp : Has o p) : Deep p := fun q hq => h q (.step hp hq)

theorem nested_structure {inst : Ifc → Bool} (h : nested inst = true) : inst .IStructureField = true := by
  simp only [nested, Bool.and_eq_true] at h
  exact h.2

theorem nested_iff {inst : Ifc → Bool} (hs : Sound inst) : nested inst = inst .IStructureField := by
  cases h : inst .IStructureField with
  | false => simp [nested, h]
  | true =>
    have h1 := hs.lawful.base .IStructureField .IField rfl h
    have h2 := hs.lawful.base .IField .IPersist rfl h1
    have hk : ∀ i ∈ kinds, i ≠ .IStructureField → inst i = false := by
      intro i hi hne
      cases e : inst i with
      | false => rfl
      | true => exact absurd (hs.kind i hi .IStructureField (by decide) e h) hne
    simp [nested, h, h1, h2, hk .ISimpleField (by decide) (by decide), hk .IArrayField (by decide) (by decide),
      hk .ISimpleArrayField (by decide) (by decide)]

/-- The fields are shown. -/
theorem has_field {h : Head} {fs : List Obj} {cs : List Box}
    (hh : h.inst .IComponent = true ∨ nested h.inst = true) {f : Obj} (hf : f ∈ fs) :
    Has (.mk h fs cs) f :=
  .field (o := .mk h fs cs) (hh.imp id nested_structure) hf

mutual
theorem generate_body (n : Nat) : ∀ o : Obj, Deep o →
    generate (sp n) o = some (wrap (sp n) o.head (out (n + 4) (memberOuts o)))
  | .mk h fs cs, hd => by
    have hl := hd.here
    have hfs : (h.inst .IComponent = true ∨ nested h.inst = true) →
        generateAll (sp (n + 4)) fs = some (out (n + 4) (outsAll fs)) := fun hh =>
      generateAll_outs (n + 4) fs fun f hf =>
        ⟨hd.has (has_field hh hf), (hl.inner f (has_field hh hf)).1⟩
    have hcs : h.inst .IComposite = true →
        generateBoxes (sp (n + 4)) cs = some (out (n + 4) (outsBoxes cs)) := fun hh =>
      generateBoxes_outs (n + 4) cs fun b hb c hc =>
        ⟨hd.has (.component hh hb hc), (hl.inner c (.component hh hb hc)).1⟩
    have e5 : h.entryPoints.flatMap (fun m => attrLine (sp (n + 4)) m .IEntryPoint) =
        out (n + 4) (h.entryPoints.flatMap fun m => [attrOut m .IEntryPoint]) := by
      rw [out_flatMap]; simp only [out_attr]
    have p1 : (if h.inst .IComponent then componentBody (sp (n + 4)) h else some []) =
        some (out (n + 4) (if h.inst .IComponent then componentOuts h else [])) := by
      cases hc : h.inst .IComponent
      · exact congrArg some (out_nil _).symm
      · exact componentBody_outs (n + 4) h (hl.published hc)
    have p2 : (if h.inst .IComponent then
        if h.published then generateAll (sp (n + 4)) fs else none else some []) =
        some (out (n + 4) (if h.inst .IComponent then outsAll fs else [])) := by
      cases hc : h.inst .IComponent
      · exact congrArg some (out_nil _).symm
      · have hp : h.published = true := hl.published hc
        rw [if_pos rfl, if_pos hp, if_pos rfl]
        exact hfs (.inl hc)
    have p3 : (if h.inst .IComposite then generateBoxes (sp (n + 4)) cs else some []) =
        some (out (n + 4) (if h.inst .IComposite then outsBoxes cs else [])) := by
      cases hc : h.inst .IComposite
      · exact congrArg some (out_nil _).symm
      · exact hcs hc
    have p4 : (if nested h.inst then generateAll (sp (n + 4)) fs else some []) =
        some (out (n + 4) (if nested h.inst then outsAll fs else [])) := by
      cases hc : nested h.inst
      · exact congrArg some (out_nil _).symm
      · exact hfs (.inr hc)
    rw [generate, indent_sp, p1, p2, p3, p4, e5, memberOuts, out_append, out_append, out_append, out_append,
      out_ite (n + 4) (h.inst .IEntryPointPublisher)]
    rfl
theorem generateAll_outs (n : Nat) : ∀ l : List Obj,
    (∀ o ∈ l, Deep o ∧ o.head.inst .ISimulator = false) → generateAll (sp n) l = some (out n (outsAll l))
  | [], _ => by rw [generateAll, outsAll, out_nil]
  | o :: l, h => by
    have h1 := generate_body n o (h o (by simp)).1
    rw [wrap_obj n o.head (h o (by simp)).2] at h1
    rw [generateAll, h1, generateAll_outs n l (fun p hp => h p (by simp [hp])), outsAll, out_append]
    rfl
theorem generateBoxes_outs (n : Nat) : ∀ l : List Box,
    (∀ b ∈ l, ∀ o ∈ b.components, Deep o ∧ o.head.inst .ISimulator = false) →
    generateBoxes (sp n) l = some (out n (outsBoxes l))
  | [], _ => by rw [generateBoxes, outsBoxes, out_nil]
  | .mk m l :: bs, h => by
    rw [generateBoxes, generateAll_outs n l (fun o ho => h (.mk m l) (by simp) o ho),
      generateBoxes_outs n bs (fun b hb => h b (by simp [hb])), outsBoxes, out_append, out_append,
      out_attr_blank]
    rfl
end

/-- The file of a simulator. -/
theorem hints_outs (o : Obj) (hd : Deep o) (hs : o.head.inst .ISimulator = true) :
    hints o = some (out 0 ([.row (.imp "ecss_smp".toList), .blank, .blank] ++
      simOuts o.head (memberOuts o) ++ [.blank])) := by
  have h := generate_body 0 o hd
  rw [wrap_sim 0 o.head hs, show sp 0 = [] from rfl] at h
  unfold hints
  rw [h, out_append, out_append, out_cons, out_cons, out_blank, out_row _ _ (by intro s e; cases e), nl,
    show "import ecss_smp\n".toList = "import ".toList ++ "ecss_smp".toList ++ ['\n'] by decide +kernel]
  show some _ = some (sp 0 ++ ("import ".toList ++ "ecss_smp".toList) ++ ['\n'] ++ (['\n'] ++ ['\n']) ++ _ ++ ['\n'])
  rw [show sp 0 = [] from rfl]
  simp only [List.append_assoc, List.nil_append]

end Verif.Python.Hints
