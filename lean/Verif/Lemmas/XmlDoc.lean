import Verif.Lemmas.XmlParse
import Verif.Props.Utf16
/-! Lemmas about `NewXMLTree`: whole documents. -/
namespace Wizard.XmlP
open Wizard Wizard.Spec.Xml Wizard.Props

/-- From a `>` on, that may be the byte taken off the end of the document. -/
def Tail (e : XmlEnv) (terminal : Byte) (r : XmlRoot) (w : List Byte) (out : XmlRoot × Bool) : Prop := match w with
  | [] => xmlFinish r = out
  | _ :: q => Goes e terminal r q out

theorem Goes.mixed {e : XmlEnv} {terminal : Byte} {r r' : XmlRoot} {p w : List Byte} {out : XmlRoot × Bool}
    (h : ∃ N, ∀ f ≥ N, xmlConstruct e f terminal r p = .ok (r', some w)) (hg : Tail e terminal r' w out) : Goes e terminal r (asc '<' :: p) out := by
  cases w with
  | nil => rw [← show xmlFinish r' = out from hg]; exact Goes.last h
  | cons c q => exact Goes.construct h hg

theorem tail_due {l : List Byte} {terminal : Byte} (ht : (asc '>' :: l).getLast? = some terminal) : Due terminal (asc '>' :: l).dropLast := by
  cases l with
  | nil => exact .inr ⟨rfl, by simpa using ht.symm⟩
  | cons c l => exact .inl rfl

theorem tail_split (a l : List Byte) : (asc '>' :: (a ++ asc '>' :: l)).dropLast = asc '>' :: (a ++ (asc '>' :: l).dropLast) := by
  rw [← List.cons_append, List.dropLast_append_of_ne_nil (by simp)]
  rfl

theorem last_append {a b : List Byte} (h : b ≠ []) : (a ++ b).getLast? = b.getLast? := by
  rw [List.getLast?_append]
  cases hb : b.getLast? with
  | none => rw [List.getLast?_eq_none_iff] at hb; exact absurd hb h
  | some x => rfl

theorem last_split (a l : List Byte) : (asc '>' :: (a ++ asc '>' :: l)).getLast? = (asc '>' :: l).getLast? := by
  rw [← List.cons_append, last_append (by simp)]

/-- Text is ignored: there is no element yet, or none any more. -/
def Quiet (r : XmlRoot) : Prop := r.stack = [] ∨ ∃ n, r.stack = [n] ∧ n.tag = none

theorem quiet_text {e : XmlEnv} {f : Nat} {r : XmlRoot} (h : Quiet r) (raw aft : List Byte) : xmlText e f r raw aft = .ok r := by
  unfold xmlText
  split
  · unfold parseCharacterContent
    rcases h with h | ⟨n, h, hn⟩
    · rw [h]
    · rw [h]
      simp only []
      rw [if_pos (.inl hn)]
  · rfl

theorem misc_go (e : XmlEnv) (terminal : Byte) : ∀ (items : Items), items.WF → items.Misc → ∀ (r : XmlRoot) (n : XmlOpen), r.stack = [n] → n.tag = none → ∀ (q : List Byte) (out : XmlRoot × Bool),
    Goes e terminal { r with pis := addAll true items.pis r.pis } (asc '<' :: q) out → Goes e terminal r (items.render ++ asc '<' :: q) out := by
  have b5 : bytes "<!--" = asc '<' :: bytes "!--" := by decide +kernel
  have b7 : bytes "<?" = [asc '<', asc '?'] := by decide +kernel
  have b8 : bytes "?>" = [asc '?', asc '>'] := by decide +kernel
  have b9 : bytes "-->" = bytes "--" ++ [asc '>'] := by decide +kernel
  have b10 : bytes "<!DOCTYPE" = asc '<' :: bytes "!DOCTYPE" := by decide +kernel
  have b2 : bytes ">" = [asc '>'] := by decide +kernel
  intro items
  induction items with
  | done => intro _ _ r n _ _ q out h; exact h
  | text raw rest ih =>
    intro hw hm r n hr hn q out h
    obtain ⟨hne, hch, hlt, hnt, hwr⟩ := hw
    have h2 := ih hwr hm.2 r n hr hn q out h
    have hx : ∃ q', rest.render ++ asc '<' :: q = asc '<' :: q' := by
      cases rest with
      | text _ _ => cases hnt
      | done => exact ⟨q, rfl⟩
      | cdata _ _ => exact hm.2.elim
      | comment _ _ => exact ⟨_, by rw [Items.render, b5]; rfl⟩
      | pi _ _ _ _ => exact ⟨_, by rw [Items.render, b7]; rfl⟩
      | doctype _ _ => exact ⟨_, by rw [Items.render, b10]; rfl⟩
      | elem _ _ _ _ _ _ => exact hm.2.elim
      | empty _ _ _ _ => exact hm.2.elim
    obtain ⟨q', hq'⟩ := hx
    show Goes e terminal r (raw ++ rest.render ++ asc '<' :: q) out
    rw [List.append_assoc, hq']
    rw [hq'] at h2
    exact Goes.text (by intro hx; exact hlt hx) ⟨0, fun f _ => quiet_text (.inr ⟨n, hr, hn⟩) _ _⟩ h2
  | cdata _ _ _ => intro _ hm; exact hm.elim
  | comment raw rest ih =>
    intro hw hm r n hr hn q out h
    obtain ⟨hch, hno, hnd, hwr⟩ := hw
    have h2 := ih hwr hm r n hr hn q out h
    have er : (Items.comment raw rest).render ++ asc '<' :: q = asc '<' :: (bytes "!--" ++ raw ++ bytes "--" ++ (asc '>' :: (rest.render ++ asc '<' :: q))) := by
      rw [Items.render, b5, b9]; simp
    rw [er]
    exact Goes.construct ⟨0, fun f _ => comment_read e r terminal raw _ hno hnd (.inl rfl) f⟩ h2
  | pi target gap body rest ih =>
    intro hw hm r n hr hn q out h
    obtain ⟨h1, h2, h3, h4, h5, h6, h7, hwr⟩ := hw
    have h2' := ih hwr hm (addTo r target body) n hr hn q out (by
      have hb : r.before = true := by unfold XmlRoot.before; rw [hr]; simp [hn]
      show Goes e terminal { addTo r target body with pis := addAll true rest.pis (addPI target body r.before r.pis) } _ _
      rw [hb]
      exact h)
    have er : (Items.pi target gap body rest).render ++ asc '<' :: q = asc '<' :: (asc '?' :: (target ++ gap ++ body ++ asc '?' :: (asc '>' :: (rest.render ++ asc '<' :: q)))) := by
      rw [Items.render, b7, b8]; simp
    rw [er]
    exact Goes.construct ⟨0, fun f _ => pi_item e f r terminal target gap body (asc '>' :: (rest.render ++ asc '<' :: q)) ⟨h1, h2, h3, h4, h5, h6, h7, trivial⟩ (.inl rfl)⟩ h2'
  | doctype raw rest ih =>
    intro hw hm r n hr hn q out h
    obtain ⟨hch, h1, h2, h3, hwr⟩ := hw
    have h2' := ih hwr hm r n hr hn q out h
    have er : (Items.doctype raw rest).render ++ asc '<' :: q = asc '<' :: (bytes "!DOCTYPE" ++ raw ++ (asc '>' :: (rest.render ++ asc '<' :: q))) := by
      rw [Items.render, b10, b2]; simp
    rw [er]
    exact Goes.construct ⟨0, fun f _ => doctype_read e f r terminal raw _ h1 h2 h3 (.inl rfl)⟩ h2'
  | elem _ _ _ _ _ _ _ _ => intro _ hm; exact hm.elim
  | empty _ _ _ _ _ => intro _ hm; exact hm.elim

theorem behind_tail (e : XmlEnv) (terminal : Byte) : ∀ (items : Items), items.WF → items.Misc → ∀ (r : XmlRoot), r.stack = [] → (asc '>' :: items.render).getLast? = some terminal →
    Tail e terminal r (asc '>' :: items.render).dropLast (xmlFinish { r with pis := addAll false items.pis r.pis }) := by
  have b5 : bytes "<!--" = asc '<' :: bytes "!--" := by decide +kernel
  have b7 : bytes "<?" = [asc '<', asc '?'] := by decide +kernel
  have b8 : bytes "?>" = [asc '?', asc '>'] := by decide +kernel
  have b9 : bytes "-->" = bytes "--" ++ [asc '>'] := by decide +kernel
  have b10 : bytes "<!DOCTYPE" = asc '<' :: bytes "!DOCTYPE" := by decide +kernel
  have b2 : bytes ">" = [asc '>'] := by decide +kernel
  intro items
  induction items with
  | done => intro _ _ r hr ht; rfl
  | text raw rest ih =>
    intro hw hm r hr ht
    obtain ⟨hne, hch, hlt, hnt, hwr⟩ := hw
    have hx : rest = .done ∨ ∃ q', rest.render.dropLast = asc '<' :: q' := by
      cases rest with
      | text _ _ => cases hnt
      | done => exact .inl rfl
      | cdata _ _ => exact hm.2.elim
      | comment raw rest => exact .inr ⟨_, by rw [Items.render, b5, show bytes "!--" = [33, 45, 45] by decide +kernel]; rfl⟩
      | pi _ _ _ _ => exact .inr ⟨_, by rw [Items.render, b7]; rfl⟩
      | doctype _ _ => exact .inr ⟨_, by rw [Items.render, b10, show bytes "!DOCTYPE" = [33, 68, 79, 67, 84, 89, 80, 69] by decide +kernel]; rfl⟩
      | elem _ _ _ _ _ _ => exact hm.2.elim
      | empty _ _ _ _ => exact hm.2.elim
    rcases hx with hx | ⟨q', hq'⟩
    · subst hx
      have : (asc '>' :: (Items.text raw Items.done).render).dropLast = asc '>' :: raw.dropLast := by
        show (asc '>' :: (raw ++ [])).dropLast = _
        rw [List.append_nil, List.dropLast_cons_of_ne_nil hne]
      rw [this]
      show Goes e terminal r raw.dropLast (xmlFinish { r with pis := r.pis })
      exact Goes.nothing (fun h => hlt (List.dropLast_sublist raw |>.subset h))
    · have hrr : rest.render ≠ [] := by intro h; rw [h] at hq'; cases hq'
      have h2 := ih hwr hm.2 r hr (by
        rw [← ht]
        show (asc '>' :: rest.render).getLast? = (asc '>' :: (raw ++ rest.render)).getLast?
        rw [← List.cons_append, last_append hrr, ← List.singleton_append, last_append hrr])
      rw [List.dropLast_cons_of_ne_nil hrr] at h2
      have : (asc '>' :: (Items.text raw rest).render).dropLast = asc '>' :: (raw ++ asc '<' :: q') := by
        show (asc '>' :: (raw ++ rest.render)).dropLast = _
        rw [← List.cons_append, List.dropLast_append_of_ne_nil hrr, hq']
        rfl
      rw [this]
      rw [hq'] at h2
      exact Goes.text (by intro hx; exact hlt hx) ⟨0, fun f _ => quiet_text (.inl hr) _ _⟩ h2
  | cdata _ _ _ => intro _ hm; exact hm.elim
  | comment raw rest ih =>
    intro hw hm r hr ht
    obtain ⟨hch, hno, hnd, hwr⟩ := hw
    have er : (Items.comment raw rest).render = asc '<' :: (bytes "!--" ++ raw ++ bytes "--") ++ asc '>' :: rest.render := by
      rw [Items.render, b5, b9]; simp
    rw [er, last_split] at ht
    rw [er, tail_split]
    exact Goes.mixed ⟨0, fun f _ => comment_read e r terminal raw _ hno hnd (tail_due ht) f⟩ (ih hwr hm r hr ht)
  | pi target gap body rest ih =>
    intro hw hm r hr ht
    obtain ⟨h1, h2, h3, h4, h5, h6, h7, hwr⟩ := hw
    have er : (Items.pi target gap body rest).render = asc '<' :: (asc '?' :: (target ++ gap ++ body ++ [asc '?'])) ++ (asc '>' :: rest.render) := by
      rw [Items.render, b7, b8]; simp
    rw [er, last_split] at ht
    rw [er, tail_split]
    have h2' := ih hwr hm (addTo r target body) hr ht
    have hb : r.before = false := by unfold XmlRoot.before; rw [hr]; rfl
    have h3' := pi_item e (f := 0) r terminal target gap body _ ⟨h1, h2, h3, h4, h5, h6, h7, trivial⟩ (tail_due ht)
    show Goes e terminal r (asc '<' :: ((asc '?' :: (target ++ gap ++ body ++ [asc '?'])) ++ (asc '>' :: rest.render).dropLast)) _
    have ea : (asc '?' :: (target ++ gap ++ body ++ [asc '?'])) ++ (asc '>' :: rest.render).dropLast = asc '?' :: (target ++ gap ++ body ++ asc '?' :: (asc '>' :: rest.render).dropLast) := by simp
    rw [ea]
    refine Goes.mixed ⟨0, fun f _ => pi_item e f r terminal target gap body _ ⟨h1, h2, h3, h4, h5, h6, h7, trivial⟩ (tail_due ht)⟩ ?_
    have : addTo r target body = { r with pis := addPI target body false r.pis } := by unfold addTo; rw [hb]
    rw [this] at h2' ⊢
    exact h2'
  | doctype raw rest ih =>
    intro hw hm r hr ht
    obtain ⟨hch, h1, h2, h3, hwr⟩ := hw
    have er : (Items.doctype raw rest).render = asc '<' :: (bytes "!DOCTYPE" ++ raw) ++ asc '>' :: rest.render := by
      rw [Items.render, b10, b2]; simp
    rw [er, last_split] at ht
    rw [er, tail_split]
    exact Goes.mixed ⟨0, fun f _ => doctype_read e f r terminal raw _ h1 h2 h3 (tail_due ht)⟩ (ih hwr hm r hr ht)
  | elem _ _ _ _ _ _ _ _ => intro _ hm; exact hm.elim
  | empty _ _ _ _ _ => intro _ hm; exact hm.elim

theorem root_go (e : XmlEnv) {dtd : Dtd} (terminal : Byte) (root behind : Items) (hroot : IsRoot root) (hw : root.WF) (hs : Simple root) (hwb : behind.WF) (hmb : behind.Misc)
    (t : Tree) (hd : Denotes dtd root [] [] [(0, t)]) (r : XmlRoot) (hr : r.stack = [⟨none, [], [], 0, .nil⟩]) (hfo : Follows dtd r) (hi : r.ignore = 0) :
    ∃ (R : List Byte) (n : XmlOpen), root.render = R ++ [asc '>'] ∧ (∃ q, R = asc '<' :: q) ∧ treeOf n = t ∧ ((asc '>' :: behind.render).getLast? = some terminal →
      Goes e terminal r (R ++ (asc '>' :: behind.render).dropLast) ({ r with stack := [], closed := some n, pis := addAll false behind.pis (addAll false root.pis r.pis) }, true)) := by
  have b1 : bytes "<" = [asc '<'] := by decide +kernel
  have b2 : bytes ">" = [asc '>'] := by decide +kernel
  have b3 : bytes "</" = [asc '<', asc '/'] := by decide +kernel
  have b4 : bytes "/>" = [asc '/', asc '>'] := by decide +kernel
  have hop : ∀ tag vs, parseOpenTag r tag vs = { r with stack := [⟨some tag, vs, [], 0, .nil⟩] } := by
    intro tag vs
    unfold parseOpenTag
    rw [hr]
    simp only []
    rw [if_pos trivial]
  cases root with
  | elem tag atts gap body gap' rest =>
    cases rest with
    | done =>
      obtain ⟨hn, hwa, hg, hwbd, hg', _⟩ := hw
      obtain ⟨hk, hsa, hsb, _⟩ := hs
      cases hd with
      | elem hm hdb hdr =>
        rename_i vs c' ks'
        have hin : Inside dtd { r with stack := [⟨some tag, vs, [], 0, .nil⟩] } ⟨some tag, vs, [], 0, .nil⟩ [] := ⟨rfl, rfl, (fun m h => by cases h), hi, ⟨hfo.texts, hfo.entities, hfo.types⟩⟩
        obtain ⟨kids1, hk1, hgo1⟩ := items_go e dtd terminal body hwbd hsb _ _ _ hdb _ _ _ hin rfl (asc '/' :: (tag ++ gap' ++ (asc '>' :: behind.render).dropLast))
        refine ⟨bytes "<" ++ tag ++ renderAtts atts ++ gap ++ bytes ">" ++ body.render ++ bytes "</" ++ tag ++ gap', ⟨some tag, vs, c', 0, kids1⟩, ?_, ?_, ?_, ?_⟩
        rotate_left
        · rw [b1]; simp only [List.append_assoc, List.singleton_append]; exact ⟨_, rfl⟩
        · show Tree.node tag vs c' (kidsOf kids1) = _
          rw [hk1]; rfl
        · intro ht
          have ea : bytes "<" ++ tag ++ renderAtts atts ++ gap ++ bytes ">" ++ body.render ++ bytes "</" ++ tag ++ gap' ++ (asc '>' :: behind.render).dropLast =
              asc '<' :: (tag ++ renderAtts atts ++ gap ++ asc '>' :: (body.render ++ asc '<' :: (asc '/' :: (tag ++ gap' ++ (asc '>' :: behind.render).dropLast)))) := by
            rw [b1, b2, b3]; simp
          rw [ea]
          refine Goes.construct (open_read e r hfo hi (by rw [hr]; simp) terminal tag gap hn hk hg _ atts vs hwa hsa hm) ?_
          rw [hop]
          refine hgo1 _ ?_
          refine Goes.mixed ⟨0, fun f _ => close_read e { r with stack := [⟨some tag, vs, c', 0, kids1⟩], pis := addAll false body.pis r.pis } hi terminal tag gap' hn hg' _ (tail_due ht) _ (by unfold parseCloseTag; simp; rfl) f⟩ ?_
          have := behind_tail e terminal behind hwb hmb { r with stack := [], closed := some ⟨some tag, vs, c', 0, kids1⟩, pis := addAll false body.pis r.pis } rfl ht
          have ep : addAll false (Items.elem tag atts gap body gap' .done).pis r.pis = addAll false body.pis r.pis := by
            show addAll false (body.pis ++ []) r.pis = _
            rw [List.append_nil]
          rw [ep]
          exact this
        · rw [Items.render, b2]; simp [Items.render]
    | _ => exact hroot.elim
  | empty tag atts gap rest =>
    cases rest with
    | done =>
      obtain ⟨hn, hwa, hg, _⟩ := hw
      obtain ⟨hk, hsa, _⟩ := hs
      cases hd with
      | empty hm hdr =>
        rename_i vs
        refine ⟨bytes "<" ++ tag ++ renderAtts atts ++ gap ++ [asc '/'], ⟨some tag, vs, [], 0, .nil⟩, ?_, ?_, rfl, ?_⟩
        rotate_left
        · rw [b1]; simp only [List.append_assoc, List.singleton_append]; exact ⟨_, rfl⟩
        · intro ht
          have ea : bytes "<" ++ tag ++ renderAtts atts ++ gap ++ [asc '/'] ++ (asc '>' :: behind.render).dropLast =
              asc '<' :: (tag ++ renderAtts atts ++ gap ++ asc '/' :: (asc '>' :: behind.render).dropLast) := by
            rw [b1]; simp
          rw [ea]
          refine Goes.mixed (empty_read e r hfo hi (by rw [hr]; simp) terminal tag gap hn hk hg _ (tail_due ht) atts vs hwa hsa hm _ (by rw [hop]; unfold parseCloseTag; simp; rfl)) ?_
          exact behind_tail e terminal behind hwb hmb { r with stack := [], closed := some ⟨some tag, vs, [], 0, .nil⟩ } rfl ht
        · rw [Items.render, b4]; simp [Items.render]
    | _ => exact hroot.elim
  | _ => exact hroot.elim

theorem decl_construct (e : XmlEnv) (terminal : Byte) (x : List Byte) (hx : (∃ c r, x = c :: r ∧ Blank [c]) ∧ Chars x ∧ ¬ bytes "?>" <:+: x) (r : XmlRoot) :
    ∃ b, ∀ f tail, xmlConstruct e f terminal r (asc '?' :: (bytes "xml" ++ x ++ asc '?' :: (asc '>' :: tail))) = .ok ({ r with standalone := b }, some (asc '>' :: tail)) := by
  obtain ⟨⟨c, x', hc, hb⟩, hch, hno⟩ := hx
  have hq : asc '?' ∉ bytes "xml" := by decide +kernel
  have t0 := (fun f tail => pi_read e f r terminal (bytes "xml" ++ x) (asc '>' :: tail) (fun h => hno (infix_of_append_blank _ hq h)) (by rw [hc]; simp) (by
    intro h
    rw [show bytes "xml" = [120, 109, 108] by decide +kernel] at h
    exact absurd h (by simp; decide)) (.inl rfl))
  have t1 := (scan_stop (p := fun c => !isXmlSpace c) (a := bytes "xml") (b := x) (by decide +kernel) (fun d hd => by
    rw [hc] at hd
    simp at hd
    have := (blank_xml c (hb c List.mem_cons_self)).1
    rw [← hd]; simp [this])).1
  have : (splitPI (bytes "xml" ++ x)).1 = ascText "xml" := by
    unfold splitPI
    simp only [t1]
    decide +kernel
  refine ⟨r.standalone || standaloneYes (splitPI (bytes "xml" ++ x)).2, fun f tail => ?_⟩
  rw [t0]
  unfold parsePI
  simp only []
  rw [if_pos this]

theorem parse_goes {e : XmlEnv} {terminal : Byte} {text : List Byte} {out : XmlRoot × Bool} (h0 : (0 : Byte) ∉ text) (ht : text.getLast? = some terminal) (hlt : asc '<' ∈ text.dropLast)
    (hg : Goes e terminal newRoot text.dropLast out) : ∃ N, ∀ f ≥ N, parseText e f text = .ok (some out) := by
  obtain ⟨N, hN⟩ := hg
  refine ⟨N, fun f hf => ?_⟩
  have h := hN f hf
  unfold parseText
  rw [ht]
  simp only []
  have htx : textOf text.dropLast = text.dropLast := by
    unfold textOf
    have := (scan_stop (p := fun c => c != 0) (a := text.dropLast) (b := []) (fun x hx => by simp; intro e; exact h0 ((List.dropLast_sublist text).subset (by rw [← show x = (0 : Byte) from e]; exact hx))) (fun x hx => by cases hx)).1
    rw [List.append_nil] at this
    exact this
  rw [htx]
  unfold after at h
  cases hd : text.dropLast.dropWhile (· != asc '<') with
  | nil =>
    exfalso
    obtain ⟨a, b, hab⟩ := List.append_of_mem hlt
    have key : ∀ (a b : List Byte), (a ++ asc '<' :: b).dropWhile (· != asc '<') ≠ [] := by
      intro a b
      induction a with
      | nil => rw [List.nil_append, List.dropWhile_cons]; simp
      | cons c a ih => rw [List.cons_append, List.dropWhile_cons]; split; exact ih; simp
    rw [hab] at hd
    exact key a b hd
  | cons c p =>
    rw [hd] at h
    simp only [] at h ⊢
    rw [quiet_text (.inr ⟨_, rfl, rfl⟩), Res.ok_bind] at h
    rw [h, Res.ok_bind]

theorem convert_chars (junk : Nat → Byte) (c : Byte) (s : List Byte) (hc : c ≠ 0xFE ∧ c ≠ 0xFF) (h0 : (0 : Byte) ∉ c :: s) :
    convertDocument junk (c :: s ++ [0]) = .ok (some (c :: s ++ [0], (c :: s).length)) := by
  unfold convertDocument
  have : (c :: s ++ [0]).takeWhile (· != 0) = c :: s := by
    have := (scan_stop (p := fun c => c != 0) (a := c :: s) (b := [0]) (fun x hx => by simp; intro e; exact h0 (by rw [← show x = (0 : Byte) from e]; exact hx)) (fun x hx => by simp at hx; simp [← hx])).1
    exact this
  rw [this]
  exact C56_plain junk c s [0] hc

theorem chars_append {a b : List Byte} (ha : Chars a) (hb : Chars b) : Chars (a ++ b) := by
  intro c hc
  rcases List.mem_append.mp hc with h | h
  · exact ha c h
  · exact hb c h

theorem chars_blank {a : List Byte} (h : Blank a) : Chars a := by
  intro c hc
  rcases h c hc with h | h | h | h
  · exact .inr (.inl h)
  · exact .inr (.inr (.inl h))
  · exact .inr (.inr (.inr h))
  · left; rw [h]; decide

theorem chars_name {a : List Byte} (h : Name a) : Chars a := by
  have key : ∀ c : Byte, NameByte c → 32 ≤ c.toNat := by unfold NameByte NameStart Letter; decide +kernel
  exact fun c hc => .inl (key c (h.2 c hc))

theorem chars_atts {as : List Att} (h : ∀ a ∈ as, a.WF) : Chars (renderAtts as) := by
  intro c hc
  obtain ⟨a, ha, hc⟩ := List.mem_flatMap.mp hc
  obtain ⟨h1, h2, h3, h4, h5, h6, h7, h8⟩ := h a ha
  have hq : Chars [a.quote] := by
    intro c hc
    rw [List.mem_singleton.mp hc]
    rcases h6 with h | h <;> (rw [h]; left; decide)
  exact chars_append (chars_append (chars_append (chars_append (chars_append (chars_append (chars_append (chars_blank h2) (chars_name h3)) (chars_blank h4)) (by unfold Chars; decide +kernel)) (chars_blank h5)) hq) h7) hq c hc

theorem render_chars : ∀ (items : Items), items.WF → Chars items.render := by
  intro items
  induction items with
  | done => intro _ c hc; cases hc
  | text raw rest ih => intro hw; exact chars_append hw.2.1 (ih hw.2.2.2.2)
  | cdata raw rest ih => intro hw; exact chars_append (chars_append (chars_append (by unfold Chars; decide +kernel) hw.1) (by unfold Chars; decide +kernel)) (ih hw.2.2)
  | comment raw rest ih => intro hw; exact chars_append (chars_append (chars_append (by unfold Chars; decide +kernel) hw.1) (by unfold Chars; decide +kernel)) (ih hw.2.2.2)
  | pi target gap body rest ih =>
    intro hw
    obtain ⟨h1, h2, h3, h4, h5, h6, h7, hwr⟩ := hw
    exact chars_append (chars_append (chars_append (chars_append (chars_append (by unfold Chars; decide +kernel) (chars_name h1)) (chars_blank h3)) h5) (by unfold Chars; decide +kernel)) (ih hwr)
  | doctype raw rest ih => intro hw; exact chars_append (chars_append (chars_append (by unfold Chars; decide +kernel) hw.1) (by unfold Chars; decide +kernel)) (ih hw.2.2.2.2)
  | elem tag atts gap body gap' rest ihb ihr =>
    intro hw
    obtain ⟨h1, h2, h3, h4, h5, h6⟩ := hw
    exact chars_append (chars_append (chars_append (chars_append (chars_append (chars_append (chars_append (chars_append (chars_append (chars_append (by unfold Chars; decide +kernel) (chars_name h1))
      (chars_atts h2)) (chars_blank h3)) (by unfold Chars; decide +kernel)) (ihb h4)) (by unfold Chars; decide +kernel)) (chars_name h1)) (chars_blank h5)) (by unfold Chars; decide +kernel)) (ihr h6)
  | empty tag atts gap rest ihr =>
    intro hw
    obtain ⟨h1, h2, h3, h4⟩ := hw
    exact chars_append (chars_append (chars_append (chars_append (chars_append (by unfold Chars; decide +kernel) (chars_name h1)) (chars_atts h2)) (chars_blank h3)) (by unfold Chars; decide +kernel)) (ihr h4)

theorem misc_head {items : Items} (hw : items.WF) (hm : items.Misc) (q : List Byte) : ∃ c s, items.render ++ asc '<' :: q = c :: s ∧ c ≠ 0xFE ∧ c ≠ 0xFF := by
  cases items with
  | done => exact ⟨_, _, rfl, by decide⟩
  | text raw rest =>
    cases raw with
    | nil => exact absurd rfl hw.1
    | cons c raw =>
      refine ⟨c, _, rfl, ?_⟩
      have := hm.1 c List.mem_cons_self
      revert this
      clear hw hm
      revert c
      decide +kernel
  | comment _ _ => exact ⟨_, _, rfl, by decide⟩
  | pi _ _ _ _ => exact ⟨_, _, rfl, by decide⟩
  | doctype _ _ => exact ⟨_, _, rfl, by decide⟩
  | cdata _ _ => exact hm.elim
  | elem _ _ _ _ _ _ => exact hm.elim
  | empty _ _ _ _ => exact hm.elim

/-- The text of an XML declaration, if there is one. -/
def declText : Option (List Byte) → List Byte
  | none => []
  | some x => bytes "<?xml" ++ x ++ bytes "?>"

theorem decl_prefix (e : XmlEnv) (terminal : Byte) (decl : Option (List Byte)) (hdecl : ∀ x, decl = some x → (∃ c r, x = c :: r ∧ Blank [c]) ∧ Chars x ∧ ¬ bytes "?>" <:+: x) (before : Items) (hwb : before.WF) (hmb : before.Misc) :
    ∃ (b : Bool), Chars (declText decl) ∧ (∀ q, ∃ c s, declText decl ++ (before.render ++ asc '<' :: q) = c :: s ∧ c ≠ 0xFE ∧ c ≠ 0xFF) ∧
      ∀ p out, Goes e terminal { newRoot with standalone := b } p out → Goes e terminal newRoot (declText decl ++ p) out := by
  cases decl with
  | none => exact ⟨false, (fun c hc => by cases hc), fun q => misc_head hwb hmb q, fun p out h => h⟩
  | some x =>
    have hx := hdecl x rfl
    obtain ⟨b, hb⟩ := decl_construct e terminal x hx newRoot
    refine ⟨b, chars_append (chars_append (by unfold Chars; decide +kernel) hx.2.1) (by unfold Chars; decide +kernel), fun q => ⟨asc '<', _, rfl, by decide⟩, fun p out h => ?_⟩
    have ea : declText (some x) ++ p = asc '<' :: (asc '?' :: (bytes "xml" ++ x ++ asc '?' :: (asc '>' :: p))) := by
      unfold declText
      rw [show bytes "<?xml" = asc '<' :: asc '?' :: bytes "xml" by decide +kernel, show bytes "?>" = [asc '?', asc '>'] by decide +kernel]; simp
    rw [ea]
    exact Goes.construct ⟨0, fun f _ => hb f p⟩ h

theorem text_read (e : XmlEnv) {terminal : Byte} {text : List Byte} {out : XmlRoot × Bool} (h0 : (0 : Byte) ∉ text) (ht : text.getLast? = some terminal) (hlt : asc '<' ∈ text.dropLast)
    (hh : ∃ c s, text = c :: s ∧ c ≠ 0xFE ∧ c ≠ 0xFF) (hg : Goes e terminal newRoot text.dropLast out) : ∃ N, ∀ f ≥ N, newXMLTree e f text = .ok (some out) := by
  obtain ⟨N, hN⟩ := parse_goes h0 ht hlt hg
  refine ⟨N, fun f hf => ?_⟩
  obtain ⟨c, s, hcs', hc⟩ := hh
  unfold newXMLTree
  rw [if_neg (by rw [hcs']; simp)]
  rw [hcs'] at h0
  have hconv := convert_chars e.junk c s hc h0
  rw [hcs', hconv, Res.ok_bind]
  simp only []
  have hr : rdN (c :: s ++ [0]) 0 (c :: s).length = .ok (c :: s) := by
    unfold rdN
    rw [if_pos (by rw [List.length_append]; omega), List.drop_zero, List.take_left' rfl]
  rw [hr, Res.ok_bind, ← hcs', hN f hf]

/-- The reading of a whole document. -/
theorem document_read (e : XmlEnv) (d : Document) (hw : d.WF) (hs : Simple d.root) (t : Tree) (hd : Denotes noDtd d.root [] [] [(0, t)]) :
    ∃ (r : XmlRoot) (n : XmlOpen), r.stack = [] ∧ r.closed = some n ∧ treeOf n = t ∧ r.pis = addAll false (d.root.pis ++ d.behind.pis) (addAll true d.before.pis []) ∧
      ∃ N, ∀ f ≥ N, newXMLTree e f d.render = .ok (some (r, true)) := by
  obtain ⟨hdecl, hwb, hmb, hwr, hroot, hwe, hme⟩ := hw
  obtain ⟨terminal, hterm⟩ : ∃ x, (asc '>' :: d.behind.render).getLast? = some x := by
    cases h : (asc '>' :: d.behind.render).getLast? with
    | none => rw [List.getLast?_eq_none_iff] at h; cases h
    | some x => exact ⟨x, rfl⟩
  -- the declaration
  obtain ⟨b, hPc, hhead, hPgo⟩ := decl_prefix e terminal d.decl hdecl d.before hwb hmb
  obtain ⟨P, hPd⟩ : ∃ P, P = declText d.decl := ⟨_, rfl⟩
  have hP : d.render = P ++ d.before.render ++ d.root.render ++ d.behind.render := by rw [hPd]; unfold Document.render declText; cases d.decl <;> rfl
  rw [← hPd] at hPc hhead hPgo
  obtain ⟨R, n, hR, ⟨q, hq⟩, hn, hgo⟩ := root_go e terminal d.root d.behind hroot hwr hs hwe hme t hd { newRoot with standalone := b, pis := addAll true d.before.pis [] } rfl (follows_none rfl rfl) rfl
  refine ⟨{ newRoot with standalone := b, stack := [], closed := some n, pis := addAll false d.behind.pis (addAll false d.root.pis (addAll true d.before.pis [])) }, n, rfl, rfl, hn, ?_, ?_⟩
  · show addAll false d.behind.pis (addAll false d.root.pis _) = _
    unfold addAll
    rw [List.foldl_append]
  have htext : d.render = (P ++ d.before.render ++ R) ++ asc '>' :: d.behind.render := by
    rw [hP, hR]
    simp
  have h0 : (0 : Byte) ∉ d.render := by
    refine chars_no_nul ?_
    rw [hP]
    exact chars_append (chars_append (chars_append hPc (render_chars _ hwb)) (render_chars _ hwr)) (render_chars _ hwe)
  have hlast : d.render.getLast? = some terminal := by rw [htext, last_append (by simp), hterm]
  have hdrop : d.render.dropLast = P ++ (d.before.render ++ asc '<' :: (q ++ (asc '>' :: d.behind.render).dropLast)) := by
    rw [htext, List.dropLast_append_of_ne_nil (by simp), hq]
    simp
  have hall := hPgo _ _ (misc_go e terminal d.before hwb hmb { newRoot with standalone := b } ⟨none, [], [], 0, .nil⟩ rfl rfl (q ++ (asc '>' :: d.behind.render).dropLast) _ (by
    have := hgo hterm
    rw [hq] at this
    exact this))
  rw [← hdrop] at hall
  obtain ⟨c, s, hcs, hc⟩ := hhead (q ++ asc '>' :: d.behind.render)
  exact text_read e h0 hlast (by rw [hdrop]; simp) ⟨c, s, by rw [htext, hq, ← hcs]; simp, hc⟩ hall

end Wizard.XmlP
