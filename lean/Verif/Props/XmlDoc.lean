import Verif.Lemmas.XmlDoc
/-! C110, C111: reading whole XML documents. -/
namespace Wizard.Props
open Wizard Wizard.Spec.Xml Wizard.XmlP

/-- **C110**, partial: for every well-formed document that writes the tree `t`, `NewXMLTree` returns `t`, without a warning.  What is
missing, see `Simple`: elements called rdf:Bag or rdf:Seq, tags whose first attribute starts with `:` or a character beyond ASCII, and texts
and values that end in a carriage return.  For documents with an internal subset see C164. -/
theorem C110_document_partial (e : XmlEnv) (d : Document) (hw : d.WF) (hs : Simple d.root) (t : Tree) (hd : Denotes noDtd d.root [] [] [(0, t)]) :
    ∃ r n, (∃ N, ∀ f ≥ N, newXMLTree e f d.render = .ok (some (r, true))) ∧ r.tree = some n ∧ treeOf n = t := by
  obtain ⟨r, n, h1, h2, h3, _, h5⟩ := document_read e d hw hs t hd
  exact ⟨r, n, h5, by unfold XmlRoot.tree; rw [h1]; exact h2, h3⟩

/-- The instructions under a target. -/
def bodiesOf (ps : List XmlPI) (t : List Byte) : List (List Byte) := match ps.find? (fun p => p.target == t) with
  | none => []
  | some p => p.bodies.map (·.1)

theorem get_add (target body : List Byte) (b : Bool) (t : List Byte) : ∀ (ps : List XmlPI),
    bodiesOf (addPI target body b ps) t = bodiesOf ps t ++ (if target = t then [body] else []) := by
  intro ps
  induction ps with
  | nil =>
    unfold addPI bodiesOf
    rw [List.find?_cons]
    by_cases h : target = t
    · simp [h]
    · have : (target == t) = false := by simpa using h
      simp [h, this]
  | cons p ps ih =>
    unfold addPI
    by_cases hp : p.target = target
    · rw [if_pos hp]
      unfold bodiesOf
      rw [List.find?_cons, List.find?_cons]
      by_cases h : target = t
      · simp [hp, h]
      · have : (target == t) = false := by simpa using h
        simp [hp, h, this]
    · rw [if_neg hp]
      unfold bodiesOf at ih ⊢
      rw [List.find?_cons, List.find?_cons]
      by_cases h : p.target = t
      · have : ¬ target = t := fun e => hp (h.trans e.symm)
        simp [h, this]
      · have : (p.target == t) = false := by simpa using h
        rw [this]
        exact ih

theorem get_all (t : List Byte) (b : Bool) : ∀ (l : List (List Byte × List Byte)) (ps : List XmlPI),
    bodiesOf (addAll b l ps) t = bodiesOf ps t ++ (l.filter (fun x => x.1 = t)).map (·.2) := by
  intro l
  induction l with
  | nil => intro ps; simp [addAll]
  | cons x l ih =>
    intro ps
    show bodiesOf (addAll b l (addPI x.1 x.2 b ps)) t = _
    rw [ih, get_add, List.filter_cons]
    by_cases h : x.1 = t
    · simp [h]
    · simp [h]

/-- **C111**, partial (as C110): the processing instructions of a document, looked up by target, are those of the document in their order. -/
theorem C111_instructions_partial (e : XmlEnv) (d : Document) (hw : d.WF) (hs : Simple d.root) (t : Tree) (hd : Denotes noDtd d.root [] [] [(0, t)]) :
    ∃ r, (∃ N, ∀ f ≥ N, newXMLTree e f d.render = .ok (some (r, true))) ∧
      ∀ target, getPIs r target = ((d.before.pis ++ d.root.pis ++ d.behind.pis).filter (fun x => x.1 = target)).map (·.2) := by
  obtain ⟨r, n, _, _, _, h4, h5⟩ := document_read e d hw hs t hd
  refine ⟨r, h5, fun target => ?_⟩
  show bodiesOf r.pis target = _
  rw [h4, get_all, get_all]
  simp [bodiesOf]

/-! ### An example -/

/-- `<?xml version="1.0"?>⏎<!-- c --><a x = 'A&lt;B' :y="">t<b/>u<?p q?><![CDATA[<&]]></a >⏎<?p r?>⏎` -/
def sampleDoc : Document :=
  { decl := some (bytes " version=\"1.0\"")
    before := .text (bytes "\n") (.comment (bytes " c ") .done)
    root := .elem (bytes "a") [⟨bytes " ", bytes "x", bytes " ", bytes " ", 39, bytes "A&lt;B"⟩, ⟨bytes " ", bytes ":y", [], [], 34, []⟩] []
      (.text (bytes "t") (.empty (bytes "b") [] [] (.text (bytes "u") (.pi (bytes "p") (bytes " ") (bytes "q") (.cdata (bytes "<&") .done))))) (bytes " ") .done
    behind := .text (bytes "\n") (.pi (bytes "p") (bytes " ") (bytes "r") (.text (bytes "\n") .done)) }

/-- What it writes. -/
def sampleTree : Tree := .node (bytes "a") [(bytes "x", some (bytes "A<B")), (bytes ":y", some [])] (bytes "tu<&") [(1, .node (bytes "b") [] [] [])]

example : sampleDoc.WF := by
  have n : ∀ (c : Byte) (r : List Byte), NameStart c → (∀ x ∈ c :: r, NameByte x) → Name (c :: r) := fun c r h1 h2 => ⟨⟨c, r, rfl, h1⟩, h2⟩
  have na : Name (bytes "a") := n 97 [] (by unfold NameStart Letter; decide) (by unfold NameByte NameStart Letter; decide)
  have nb : Name (bytes "b") := n 98 [] (by unfold NameStart Letter; decide) (by unfold NameByte NameStart Letter; decide)
  have nx : Name (bytes "x") := n 120 [] (by unfold NameStart Letter; decide) (by unfold NameByte NameStart Letter; decide)
  have np : Name (bytes "p") := n 112 [] (by unfold NameStart Letter; decide) (by unfold NameByte NameStart Letter; decide)
  have ny : Name (bytes ":y") := n 58 [121] (by unfold NameStart Letter; decide) (by unfold NameByte NameStart Letter; decide)
  refine ⟨?_, ?_, ?_, ?_, trivial, ?_, ?_⟩
  · intro x hx
    cases hx
    refine ⟨⟨32, _, rfl, ?_⟩, ?_, by decide +kernel⟩
    · unfold Blank; decide
    · unfold Chars; decide +kernel
  · refine ⟨by decide +kernel, ?_, by decide +kernel, rfl, ?_, by decide +kernel, by decide +kernel, trivial⟩
    · unfold Chars; decide +kernel
    · unfold Chars; decide +kernel
  · exact ⟨by unfold Blank; decide +kernel, trivial⟩
  · refine ⟨na, ?_, by unfold Blank; decide, ⟨by decide +kernel, by unfold Chars; decide +kernel, by decide +kernel, rfl, ⟨nb, by simp, by unfold Blank; decide, ?_⟩⟩, by unfold Blank; decide, trivial⟩
    · intro a ha
      simp at ha
      rcases ha with rfl | rfl
      · exact ⟨by decide +kernel, by unfold Blank; decide, nx, by unfold Blank; decide, by unfold Blank; decide, .inr rfl, by unfold Chars; decide +kernel, by decide +kernel, by decide +kernel⟩
      · exact ⟨by decide +kernel, by unfold Blank; decide, ny, by unfold Blank; decide, by unfold Blank; decide, .inl rfl, by unfold Chars; decide +kernel, by decide +kernel, by decide +kernel⟩
    · exact ⟨by decide +kernel, by unfold Chars; decide +kernel, by decide +kernel, rfl, np, by decide +kernel, by unfold Blank; decide, by decide +kernel, by unfold Chars; decide +kernel, by decide +kernel,
        by intro c hc; cases hc; unfold Blank; decide, by unfold Chars; decide +kernel, by decide +kernel, trivial⟩
  · exact ⟨by decide +kernel, by unfold Chars; decide +kernel, by decide +kernel, rfl, np, by decide +kernel, by unfold Blank; decide, by decide +kernel, by unfold Chars; decide +kernel, by decide +kernel,
        by intro c hc; cases hc; unfold Blank; decide, by decide +kernel, by unfold Chars; decide +kernel, by decide +kernel, rfl, trivial⟩
  · exact ⟨by unfold Blank; decide +kernel, by unfold Blank; decide +kernel, trivial⟩

example : Simple sampleDoc.root := by
  have w : ∀ s : List Byte, (¬ [13] <:+ s ∧ ¬ [13, 10] <:+ s) → EndsWell s := fun s h => h
  refine ⟨by unfold skipped; decide +kernel, ⟨?_, ?_⟩, ⟨w _ (by decide +kernel), by unfold skipped; decide +kernel, ⟨by simp, by simp⟩, w _ (by decide +kernel), w _ (by decide +kernel), trivial⟩, trivial⟩
  · intro a ha
    simp at ha
    rcases ha with rfl | rfl <;> exact w _ (by decide +kernel)
  · intro a ha
    cases ha
    exact ⟨120, [], rfl, by unfold Letter; decide⟩

example : Denotes noDtd sampleDoc.root [] [] [(0, sampleTree)] := by
  refine .elem (.some (value_plain ?_ _ _) (.some (value_plain .done _ _) .none)) (.text (.plain (by decide) (by decide) .done) (.empty .none (.text (.plain (by decide) (by decide) .done) (.pi (.cdata .done))))) .done
  exact .plain (c := 65) (by decide) (by decide) (.known (name := bytes "lt") (c := 60) (by decide +kernel) (.plain (c := 66) (by decide) (by decide) .done))

/-! ### What is read otherwise -/

/-- Uninitialised memory holds zeros, and internal subsets declare nothing. -/
def plainEnv : XmlEnv := ⟨fun _ => 0, fun r _ => .ok (some r)⟩

theorem sp_ok : bytes " " ≠ [] ∧ Blank (bytes " ") ∧ Blank [] := by unfold Blank; decide +kernel

theorem name_ok {c : Byte} {r : List Byte} (h1 : NameStart c) (h2 : ∀ x ∈ c :: r, NameByte x) : Name (c :: r) := ⟨⟨c, r, rfl, h1⟩, h2⟩

/-- `<a :x='1' y='2'/>` -/
def colonDoc (v : String) : Document :=
  { decl := none, before := .done, behind := .done
    root := .empty (bytes "a") [⟨bytes " ", bytes ":x", [], [], 39, bytes v⟩, ⟨bytes " ", bytes "y", [], [], 39, bytes "2"⟩] [] .done }

theorem colon_wf (v : String) (h1 : Chars (bytes v)) (h2 : (39 : Byte) ∉ bytes v) (h3 : (60 : Byte) ∉ bytes v) : (colonDoc v).WF := by
  refine ⟨fun x hx => (by cases hx), trivial, trivial, ⟨name_ok (by unfold NameStart Letter; decide) (by unfold NameByte NameStart Letter; decide), ?_, by unfold Blank; decide, trivial⟩, trivial, trivial, trivial⟩
  intro a ha
  simp at ha
  rcases ha with rfl | rfl
  · exact ⟨sp_ok.1, sp_ok.2.1, name_ok (by unfold NameStart Letter; decide) (by unfold NameByte NameStart Letter; decide), sp_ok.2.2, sp_ok.2.2, .inr rfl, h1, h2, h3⟩
  · exact ⟨by decide +kernel, by unfold Blank; decide, name_ok (by unfold NameStart Letter; decide) (by unfold NameByte NameStart Letter; decide), by unfold Blank; decide, by unfold Blank; decide, .inr rfl, by unfold Chars; decide +kernel, by decide +kernel, by decide +kernel⟩

/-- **C110 is false** for tags whose first attribute has a name that does not start with an ASCII letter or `_` (xml-tree.c:2086): names may
start with `:` and with characters beyond ASCII, but then all the attributes of the tag are lost, and nothing is reported.  The document
`<a :x='1' y='2'/>` is read as `<a/>`.  If a value has a slash, the document is refused: of `<a :x='1/2' y='2'/>` not even the root is read. -/
theorem C110_first_attribute_violated :
    (∃ (d : Document) (t : Tree) (r : XmlRoot) (n : XmlOpen) (f : Nat), d.WF ∧ Denotes noDtd d.root [] [] [(0, t)] ∧ t = .node (bytes "a") [(bytes ":x", some (bytes "1")), (bytes "y", some (bytes "2"))] [] [] ∧
      newXMLTree plainEnv f d.render = .ok (some (r, true)) ∧ r.tree = some n ∧ treeOf n = .node (bytes "a") [] [] []) ∧
    (∃ (d : Document) (t : Tree) (r : XmlRoot) (n : XmlOpen) (f : Nat), d.WF ∧ Denotes noDtd d.root [] [] [(0, t)] ∧
      newXMLTree plainEnv f d.render = .ok (some (r, false)) ∧ r.tree = some n ∧ n.tag = none) := by
  constructor
  · refine ⟨colonDoc "1", _, ⟨[], some ⟨some (bytes "a"), [], [], 0, .nil⟩, false, [], predefinedEntities, [], 0⟩, ⟨some (bytes "a"), [], [], 0, .nil⟩, 50,
      colon_wf _ (by unfold Chars; decide +kernel) (by decide +kernel) (by decide +kernel), .empty (.some (v := bytes "1") (value_plain ?_ _ _) (.some (v := bytes "2") (value_plain ?_ _ _) .none)) .done, rfl, by decide +kernel, rfl, rfl⟩
    · exact .plain (c := 49) (by decide) (by decide) .done
    · exact .plain (c := 50) (by decide) (by decide) .done
  · refine ⟨colonDoc "1/2", _, newRoot, ⟨none, [], [], 0, .nil⟩, 50,
      colon_wf _ (by unfold Chars; decide +kernel) (by decide +kernel) (by decide +kernel), .empty (.some (v := bytes "1/2") (value_plain ?_ _ _) (.some (v := bytes "2") (value_plain ?_ _ _) .none)) .done, by decide +kernel, by unfold newRoot XmlRoot.tree hangUp; rfl, rfl⟩
    · exact .plain (c := 49) (by decide) (by decide) (.plain (c := 47) (by decide) (by decide) (.plain (c := 50) (by decide) (by decide) .done))
    · exact .plain (c := 50) (by decide) (by decide) .done

/-- `<a><rdf:Bag><b c='v'>t</b></rdf:Bag></a>` -/
def bagDoc (v : String) : Document :=
  { decl := none, before := .done, behind := .done
    root := .elem (bytes "a") [] [] (.elem (bytes "rdf:Bag") [] [] (.elem (bytes "b") [⟨bytes " ", bytes "c", [], [], 39, bytes v⟩] [] (.text (bytes "t") .done) [] .done) [] .done) [] .done }

theorem bag_wf (v : String) (h1 : Chars (bytes v)) (h2 : (39 : Byte) ∉ bytes v) (h3 : (60 : Byte) ∉ bytes v) : (bagDoc v).WF := by
  have nil : Blank [] := by unfold Blank; decide
  refine ⟨fun x hx => (by cases hx), trivial, trivial, ⟨name_ok (by unfold NameStart Letter; decide) (by unfold NameByte NameStart Letter; decide), by simp, nil,
    ⟨name_ok (by unfold NameStart Letter; decide) (by unfold NameByte NameStart Letter; decide), by simp, nil,
      ⟨name_ok (by unfold NameStart Letter; decide) (by unfold NameByte NameStart Letter; decide), ?_, nil, ⟨by decide +kernel, by unfold Chars; decide +kernel, by decide +kernel, rfl, trivial⟩, nil, trivial⟩, nil, trivial⟩, nil, trivial⟩, trivial, trivial, trivial⟩
  intro a ha
  simp at ha
  subst ha
  exact ⟨sp_ok.1, sp_ok.2.1, name_ok (by unfold NameStart Letter; decide) (by unfold NameByte NameStart Letter; decide), nil, nil, .inr rfl, h1, h2, h3⟩

/-- **C110 is false** for the elements rdf:Bag and rdf:Seq (xml-tree.c:1965-1986): they are left out with all that they hold.
`<a><rdf:Bag><b c='1'>t</b></rdf:Bag></a>` is read as `<a></a>`.  If an attribute in them has a slash in its value, as a URL has, the document
is refused: `<a><rdf:Bag><b c='1/2'>t</b></rdf:Bag></a>`. -/
theorem C110_skipped_violated :
    (∃ (d : Document) (t : Tree) (r : XmlRoot) (n : XmlOpen) (f : Nat), d.WF ∧ Denotes noDtd d.root [] [] [(0, t)] ∧
      t = .node (bytes "a") [] [] [(0, .node (bytes "rdf:Bag") [] [] [(0, .node (bytes "b") [(bytes "c", some (bytes "1"))] (bytes "t") [])])] ∧
      newXMLTree plainEnv f d.render = .ok (some (r, true)) ∧ r.tree = some n ∧ treeOf n = .node (bytes "a") [] [] []) ∧
    (∃ (d : Document) (t : Tree) (r : XmlRoot) (f : Nat), d.WF ∧ Denotes noDtd d.root [] [] [(0, t)] ∧ newXMLTree plainEnv f d.render = .ok (some (r, false))) := by
  have ht : Means content [] (lines (bytes "t")) (bytes "t") := .plain (c := 116) (by decide) (by decide) .done
  constructor
  · refine ⟨bagDoc "1", _, ⟨[], some ⟨some (bytes "a"), [], [], 0, .nil⟩, false, [], predefinedEntities, [], 0⟩, ⟨some (bytes "a"), [], [], 0, .nil⟩, 50,
      bag_wf _ (by unfold Chars; decide +kernel) (by decide +kernel) (by decide +kernel),
      .elem .none (.elem .none (.elem (.some (v := bytes "1") (value_plain ?_ _ _) .none) (.text ht .done) .done) .done) .done, rfl, by decide +kernel, rfl, rfl⟩
    exact .plain (c := 49) (by decide) (by decide) .done
  · refine ⟨bagDoc "1/2", _, { newRoot with stack := [⟨some (bytes "a"), [], [], 0, .nil⟩], ignore := 1 }, 50,
      bag_wf _ (by unfold Chars; decide +kernel) (by decide +kernel) (by decide +kernel),
      .elem .none (.elem .none (.elem (.some (v := bytes "1/2") (value_plain ?_ _ _) .none) (.text ht .done) .done) .done) .done, by decide +kernel⟩
    exact .plain (c := 49) (by decide) (by decide) (.plain (c := 47) (by decide) (by decide) (.plain (c := 50) (by decide) (by decide) .done))

end Wizard.Props
