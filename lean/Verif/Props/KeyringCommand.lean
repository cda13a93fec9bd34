import Verif.Props.KeyringPrint
import Verif.Model.KeyringCommand
import Verif.Spec.KeyringCommand
/-! The program `keyring` (C169). -/
namespace Wizard.Props
open Wizard Spec.Hash Spec.Keyring Spec.KeyringPrint Spec.KeyringCommand

/-- The program can read its files: digests of a header, a clock with short texts, no interruptions. -/
structure GoodProgram (p : RingProgram) : Prop where
  header : Header p.magick p.filetype
  clock : ∀ t, (p.clock t).length < wizardPathExtent
  quiet : Quiet p.io

/-- A key ring that is there and is whole; fuel and turns suffice. -/
structure GoodRing (p : RingProgram) (files : Files) (a : Asked) : Prop where
  file : files a.path = some (ring (p.magick.bytes ++ p.filetype.bytes) a.records)
  fits : ∀ r ∈ a.records, r.Fits
  mtime : p.mtime a.path = a.mtime
  written : canonicalXMLContent p.heap a.path false = .ok a.written
  fuel : printFuel p.magick p.filetype a.records p.io < p.fuel
  turns : a.records.length < p.turns

theorem printRing_good {p : RingProgram} {files : Files} {a : Asked} (hp : GoodProgram p) (h : GoodRing p files a) :
    printRing p files a.path = .ok (true, listOf p.clock p.now a) := by
  unfold printRing
  rw [h.file, ← List.append_nil (ring _ _)]
  have := C168_list p.magick p.filetype hp.header a.records h.fits [] (by simp) p.io hp.quiet ⟨a.path, p.heap, p.clock, p.mtime a.path, p.now⟩
    (fun t => hp.clock t) a.written h.written p.fuel p.turns h.fuel h.turns
  rw [this]
  show Res.ok (true, listing a.written p.clock (p.mtime a.path) p.now _) = _
  rw [h.mtime]
  rfl

theorem plain_option {a : List Byte} (h : Plain a) : isWizardOption a = false := by
  match a, h with
  | [], _ => rfl
  | [_], _ => rfl
  | c :: d :: _, ⟨h1, h2, _⟩ =>
    have e1 : (c == asc '-') = false := by simpa using h1
    have e2 : (c == asc '+') = false := by simpa using h2
    simp [isWizardOption, e1, e2]

theorem plain_export {a : List Byte} (h : Plain a) : keyIs (a.drop 1) "export" = false := by
  unfold keyIs
  have : (ascText "export").map cLocaleLower = ascText "export" := by decide +kernel
  rw [this]
  simpa using h.2.2

theorem listArgument_plain {p : RingProgram} {a : List Byte} (h : Plain a) (rest : List (List Byte)) : listArgument p a rest = .go a rest none := by
  unfold listArgument
  rw [plain_option h]
  rfl

theorem withFile_same (files : Files) (q : List Byte) (c : Option (List Byte)) : withFile files q c q = c := if_pos rfl

theorem withFile_ne {files : Files} {q r : List Byte} {c : Option (List Byte)} (h : r ≠ q) : withFile files q c r = files r := if_neg h

/-- Plain arguments are listed one by one. -/
theorem listArguments_plain {p : RingProgram} {files : Files} (hp : GoodProgram p) (out : List Byte) :
    ∀ (as : List Asked) (n : Nat), as.length < n → (∀ a ∈ as, Plain a.path ∧ GoodRing p files a) →
      listArguments p files n (as.map Asked.path ++ [out]) true = .ok (some true, true, (as.map (listOf p.clock p.now)).flatten) := by
  intro as
  induction as with
  | nil =>
    intro n hn _
    cases n with
    | zero => omega
    | succ n => rfl
  | cons a as ih =>
    intro n hn h
    cases n with
    | zero => omega
    | succ n =>
      obtain ⟨h1, h2⟩ := h a List.mem_cons_self
      have hrest := ih n (by simpa using hn) (fun b hb => h b (List.mem_cons_of_mem _ hb))
      rw [List.map_cons, List.cons_append]
      have key : ∀ l : List (List Byte), l ≠ [] → listArguments p files (n + 1) (a.path :: l) true =
          (printRing p files a.path >>= fun r => listArguments p files n l r.1 >>= fun m => .ok (m.1, m.2.1, r.2 ++ m.2.2)) := by
        intro l hl
        cases l with
        | nil => exact absurd rfl hl
        | cons x l =>
          rw [listArguments, listArgument_plain h1]
      rw [key _ (by simp), printRing_good hp h2, Res.ok_bind]
      simp only []
      rw [hrest, Res.ok_bind]
      rfl

theorem document_eq (l : List (List Byte)) : rdfStart ++ l.flatten ++ rdfEnd = document l := by
  unfold document rdfStart rdfEnd
  have : ascText ("<?xml version=\"1.0\"?>\n<rdf:RDF xmlns:rdf=\"http://www.w3.org/1999/02/22-rdf-syntax-ns#\"\n" ++
    "         xmlns:keyring=\"https://urban-warrior.org/WizardsToolkit/keyring/1.0/\">\n") =
    ascText "<?xml version=\"1.0\"?>\n" ++ ascText "<rdf:RDF xmlns:rdf=\"http://www.w3.org/1999/02/22-rdf-syntax-ns#\"\n" ++
    ascText "         xmlns:keyring=\"https://urban-warrior.org/WizardsToolkit/keyring/1.0/\">\n" := by decide +kernel
  rw [this]

theorem withFile_twice (files : Files) (q : List Byte) (c d : Option (List Byte)) : withFile (withFile files q c) q d = withFile files q d := by
  funext r
  unfold withFile
  split <;> rfl

/-- **C169** (partial) `keyring ring ... out` without options, with key rings that are there and whole, returns True and leaves in `out` one
document with the lists of the key rings in the order of the arguments; no other file changes.  Missing: options, key rings that
are damaged or missing, and a key ring that is also the output (the `_violated` theorems below and C168). -/
theorem C169_list_partial (p : RingProgram) (hp : GoodProgram p) (files : Files) (name out : List Byte) (as : List Asked) (hne : as ≠ [])
    (has : ∀ a ∈ as, Plain a.path ∧ a.path ≠ out ∧ GoodRing p files a) :
    ∃ files', keyringCommand p (name :: (as.map Asked.path ++ [out])) files = .ok (some true, files') ∧
      files' out = some (document (as.map (listOf p.clock p.now))) ∧ ∀ q, q ≠ out → files' q = files q := by
  refine ⟨withFile files out (some (document (as.map (listOf p.clock p.now)))), ?_, withFile_same .., fun q hq => withFile_ne hq⟩
  obtain ⟨a, as', rfl⟩ : ∃ a as', as = a :: as' := by cases as with | nil => exact absurd rfl hne | cons a as' => exact ⟨a, as', rfl⟩
  have hlen : (name :: ((a :: as').map Asked.path ++ [out])).length ≠ 2 := by simp
  unfold keyringCommand
  rw [if_neg (fun h => hlen h.1)]
  simp only [List.map_cons, List.cons_append]
  have hlast : (a.path :: (as'.map Asked.path ++ [out])).getLastD [] = out := by
    rw [← List.cons_append, List.getLastD_eq_getLast?, List.getLast?_concat]; rfl
  have hdrop : (a.path :: (as'.map Asked.path ++ [out])).dropLast = (a :: as').map Asked.path := by
    rw [← List.cons_append, List.dropLast_concat]; rfl
  rw [hlast, hdrop]
  have hany : ((a :: as').map Asked.path).any (fun a => keyIs (a.drop 1) "export") = false := by
    rw [List.any_eq_false]
    intro x hx
    obtain ⟨b, hb, rfl⟩ := List.mem_map.mp hx
    rw [plain_export (has b hb).1]
    simp
  rw [hany]
  simp only [Bool.false_eq_true, if_false]
  have := listArguments_plain (files := withFile files out (some [])) hp out (a :: as') (a.path :: (as'.map Asked.path ++ [out])).length (by simp) (fun b hb => by
    obtain ⟨h1, h2, h3⟩ := has b hb
    exact ⟨h1, ⟨by rw [withFile_ne h2]; exact h3.file, h3.fits, h3.mtime, h3.written, h3.fuel, h3.turns⟩⟩)
  rw [List.map_cons, List.cons_append] at this
  rw [this, Res.ok_bind]
  simp only [Bool.true_eq_false, if_false]
  rw [if_neg (by simp), withFile_twice, document_eq]
  rfl

/-- **C169** (partial) `keyring out` lists the default key ring. -/
theorem C169_default_partial (p : RingProgram) (hp : GoodProgram p) (files : Files) (name out : List Byte) (a : Asked) (ha : a.path = p.home)
    (hno : p.home ≠ out) (hver : (out.drop 1).map cLocaleLower ≠ ascText "version" ∧ (out.drop 1).map cLocaleLower ≠ ascText "-version")
    (hg : GoodRing p files a) :
    ∃ files', keyringCommand p [name, out] files = .ok (some true, files') ∧
      files' out = some (document [listOf p.clock p.now a]) ∧ ∀ q, q ≠ out → files' q = files q := by
  refine ⟨withFile files out (some (document [listOf p.clock p.now a])), ?_, withFile_same .., fun q hq => withFile_ne hq⟩
  unfold keyringCommand
  have hv : ¬ ([name, out].length = 2 ∧ (keyIs (([name, out].getD 1 []).drop 1) "version" ∨ keyIs (([name, out].getD 1 []).drop 1) "-version")) := by
    have e1 : (ascText "version").map cLocaleLower = ascText "version" := by decide +kernel
    have e2 : (ascText "-version").map cLocaleLower = ascText "-version" := by decide +kernel
    simp only [keyIs, e1, e2, beq_iff_eq]
    intro h
    rcases h.2 with h | h
    · exact hver.1 h
    · exact hver.2 h
  rw [if_neg hv]
  simp only [List.dropLast_singleton, List.any_nil, Bool.false_eq_true, if_false, List.length_singleton]
  have hl : ([out] : List (List Byte)).getLastD [] = out := rfl
  rw [hl]
  have h1 : listArguments p (withFile files out (some [])) 1 [out] true = .ok (some true, true, []) := rfl
  rw [h1, Res.ok_bind]
  simp only [Bool.true_eq_false, if_false]
  rw [if_pos (by simp), ← ha, printRing_good (a := a) hp ⟨by rw [withFile_ne (by rw [ha]; exact hno)]; exact hg.file, hg.fits, hg.mtime, hg.written, hg.fuel, hg.turns⟩,
    Res.ok_bind, withFile_twice, ← document_eq]
  simp

/-- The value of an option is listed. -/
theorem listArguments_option (p : RingProgram) (files : Files) (opt word : List Byte) (rest : List (List Byte)) (hr : rest ≠ [])
    (hw : Plain word) (hopt : (opt = ascText "-debug" ∧ p.events word = true) ∨ (opt = ascText "-log" ∧ asc '%' ∈ word)) (status : Bool) (n : Nat) :
    listArguments p files (n + 1) (opt :: word :: rest) status = listArguments p files (n + 1) (word :: rest) status := by
  obtain ⟨x, l, rfl⟩ : ∃ x l, rest = x :: l := by cases rest with | nil => exact absurd rfl hr | cons x l => exact ⟨x, l, rfl⟩
  rw [listArguments, listArguments, listArgument_plain hw]
  rcases hopt with ⟨rfl, h⟩ | ⟨rfl, h⟩
  · have e1 : isWizardOption (ascText "-debug") = true := by decide +kernel
    have e2 : (ascText "-debug")[1]? = some (asc 'd') := by decide +kernel
    have e3 : keyIs (ascText "-debug") "-debug" = true := by decide +kernel
    rw [listArgument, if_pos e1, if_pos e2, ringDebug, if_pos e3]
    simp only [h, if_true]
  · have e1 : isWizardOption (ascText "-log") = true := by decide +kernel
    have e2 : (ascText "-log")[1]? = some (asc 'l') := by decide +kernel
    have e3 : keyIs (ascText "-log") "-list" = false := by decide +kernel
    have e4 : keyIs ((ascText "-log").drop 1) "log" = true := by decide +kernel
    have e5 : (ascText "-log").head? ≠ some (asc '+') := by decide +kernel
    have e6 : (ascText "-log")[1]? ≠ some (asc 'd') := by decide +kernel
    have e7 : (ascText "-log")[1]? ≠ some (asc 'h') := by decide +kernel
    rw [listArgument, if_pos e1, if_neg e6, if_neg e7, if_pos e2, ringList, e3, e4]
    simp only [Bool.false_eq_true, if_false, if_true]
    rw [if_neg e5, if_pos (by simpa using h)]

/-- The bound does not matter. -/
theorem ringStep_shrinks {p : RingProgram} {option : List Byte} {rest : List (List Byte)} {path : List Byte} {rest' : List (List Byte)}
    {id : Option (List Byte)} (h : listArgument p option rest = .go path rest' id) : rest'.length ≤ rest.length := by
  unfold listArgument ringDebug ringHelp ringList ringVersion at h
  repeat' split at h
  all_goals first
    | (cases h; done)
    | (cases h; simp; done)
    | (cases h; exact Nat.le_refl _)

theorem listArguments_bound (p : RingProgram) (files : Files) : ∀ (n m : Nat) (l : List (List Byte)) (status : Bool), 0 < n → 0 < m → l.length ≤ n → l.length ≤ m →
    listArguments p files n l status = listArguments p files m l status := by
  intro n
  induction n with
  | zero => intro m l st h; omega
  | succ n ih =>
    intro m l st _ hm hn hlm
    cases m with
    | zero => omega
    | succ m =>
      match l, hn, hlm with
      | [], _, _ => rfl
      | [_], _, _ => rfl
      | option :: next :: more, hn, hlm =>
        rw [listArguments, listArguments]
        cases hs : listArgument p option (next :: more) with
        | failed => rfl
        | exit => rfl
        | go path rest id =>
          simp only []
          have hlen := ringStep_shrinks hs
          simp only [List.length_cons] at hn hlm hlen
          have : (fun r : Bool × List Byte => listArguments p files n rest r.1 >>= fun m => (.ok (m.1, m.2.1, r.2 ++ m.2.2) : Res _)) =
              (fun r : Bool × List Byte => listArguments p files m rest r.1 >>= fun m => (.ok (m.1, m.2.1, r.2 ++ m.2.2) : Res _)) := by
            funext r
            rw [ih m rest r.1 (by omega) (by omega) (by omega) (by omega)]
          exact congrArg (fun k => printRing p files path >>= k) this

/-- **C169** (violated) The value of an option is listed as if it were a key ring: `-debug word` and `-log format` make the program do what the
word or the format alone would have made it do. -/
theorem C169_option_violated (p : RingProgram) (files : Files) (name opt word out : List Byte) (rest : List (List Byte))
    (hrest : ∀ a ∈ rest, (a.drop 1).map cLocaleLower ≠ ascText "export")
    (hw : Plain word) (hopt : (opt = ascText "-debug" ∧ p.events word = true) ∨ (opt = ascText "-log" ∧ asc '%' ∈ word)) :
    keyringCommand p (name :: opt :: word :: (rest ++ [out])) files = keyringCommand p (name :: word :: (rest ++ [out])) files := by
  have hex : ∀ a ∈ rest, keyIs (a.drop 1) "export" = false := by
    intro a ha
    unfold keyIs
    have : (ascText "export").map cLocaleLower = ascText "export" := by decide +kernel
    rw [this]
    simpa using hrest a ha
  have hoe : keyIs (opt.drop 1) "export" = false := by
    rcases hopt with ⟨rfl, _⟩ | ⟨rfl, _⟩ <;> decide +kernel
  have d1 : (opt :: word :: (rest ++ [out])).dropLast = opt :: word :: rest := by
    rw [← List.cons_append, ← List.cons_append, List.dropLast_concat]
  have d2 : (word :: (rest ++ [out])).dropLast = word :: rest := by rw [← List.cons_append, List.dropLast_concat]
  have l1 : (opt :: word :: (rest ++ [out])).getLastD [] = out := by
    rw [← List.cons_append, ← List.cons_append, List.getLastD_eq_getLast?, List.getLast?_concat]; rfl
  have l2 : (word :: (rest ++ [out])).getLastD [] = out := by
    rw [← List.cons_append, List.getLastD_eq_getLast?, List.getLast?_concat]; rfl
  have a2 : (word :: rest).any (fun a => keyIs (a.drop 1) "export") = false := by
    rw [List.any_cons, plain_export hw, Bool.false_or, List.any_eq_false]
    intro a ha; rw [hex a ha]; simp
  have a1 : (opt :: word :: rest).any (fun a => keyIs (a.drop 1) "export") = false := by
    rw [List.any_cons, hoe, Bool.false_or, a2]
  unfold keyringCommand
  rw [if_neg (fun h => by simp at h), if_neg (fun h => by simp at h)]
  simp only []
  rw [d1, d2, l1, l2, a1, a2]
  simp only [Bool.false_eq_true, if_false]
  have hb : listArguments p (withFile files out (some [])) (opt :: word :: (rest ++ [out])).length (opt :: word :: (rest ++ [out])) true =
      listArguments p (withFile files out (some [])) (word :: (rest ++ [out])).length (word :: (rest ++ [out])) true := by
    rw [List.length_cons, listArguments_option p _ opt word (rest ++ [out]) (by simp) hw hopt]
    exact listArguments_bound _ _ _ _ _ _ (by omega) (by simp) (by omega) (by omega)
  rw [hb]
  have n1 : (name :: opt :: word :: (rest ++ [out])).length ≠ 2 := by simp
  have n2 : (name :: word :: (rest ++ [out])).length ≠ 2 := by simp
  simp only [n1, n2, if_false]

/-- **C169** (violated) No export comes to its end: whatever the arguments, the files and the key are, if one of the arguments but the last
asks for an export, or only reads so behind its first byte, the program does not return; the argument vector is given up twice, if
nothing undefined has happened before. -/
theorem C169_export_violated (p : RingProgram) (files : Files) (name : List Byte) (args : List (List Byte)) (out : List Byte)
    (hex : ∃ a ∈ args, (a.drop 1).map cLocaleLower = ascText "export") (status : Bool) (files' : Files) :
    keyringCommand p (name :: (args ++ [out])) files ≠ .ok (some status, files') := by
  obtain ⟨a, ha, hax⟩ := hex
  cases args with
  | nil => cases ha
  | cons b args =>
    unfold keyringCommand
    rw [if_neg (fun h => by simp at h)]
    simp only [List.cons_append]
    have hdrop : (b :: (args ++ [out])).dropLast = b :: args := by rw [← List.cons_append, List.dropLast_concat]
    rw [hdrop]
    have hany : (b :: args).any (fun a => keyIs (a.drop 1) "export") = true := by
      rw [List.any_eq_true]
      refine ⟨a, ha, ?_⟩
      unfold keyIs
      have : (ascText "export").map cLocaleLower = ascText "export" := by decide +kernel
      rw [this, hax]
      simp
    rw [hany, if_pos rfl]
    intro h
    cases hr : exportArguments p ((b :: (args ++ [out])).getLastD []) (b :: (args ++ [out])).length (b :: (args ++ [out])) false files with
    | ub => rw [hr] at h; cases h
    | fatal => rw [hr] at h; cases h
    | ok r =>
      rw [hr, Res.ok_bind] at h
      cases hs : r.1 with
      | none => rw [hs] at h; simp only [Res.ok.injEq, Prod.mk.injEq] at h; exact absurd h.1 (by simp)
      | some s => rw [hs] at h; cases h

/-- `-export id` and what follows it. -/
theorem exportArguments_export (p : RingProgram) (out hex : List Byte) (rest : List (List Byte)) (n : Nat) (status : Bool) (files : Files) :
    exportArguments p out (n + 1) (ascText "-export" :: hex :: rest) status files =
      (exportOne p out (some (hexStringToStringInfo hex)) status files >>= fun r => exportArguments p out n rest r.1 r.2) := by
  have e1 : isWizardOption (ascText "-export") = true := by decide +kernel
  have e2 : (ascText "-export")[1]? = some (asc 'e') := by decide +kernel
  have e3 : (ascText "-export")[1]? ≠ some (asc 'd') := by decide +kernel
  have e4 : keyIs ((ascText "-export").drop 1) "export" = true := by decide +kernel
  have e5 : (ascText "-export").head? ≠ some (asc '+') := by decide +kernel
  rw [exportArguments, exportArgument, if_pos e1, if_neg e3, if_pos e2, ringExport, if_pos e4, if_neg e5]

/-- **C169** (violated) A key ring cannot be named for an export: with `-export id ring ... out`, the id is looked up in the default key ring,
and then NULL is looked up for the name of the key ring, which is undefined. -/
theorem C169_ring_violated (p : RingProgram) (files : Files) (name hex ring out : List Byte) (more : List (List Byte)) (hring : Plain ring)
    (status : Option Bool) (files' : Files) :
    keyringCommand p (name :: ascText "-export" :: hex :: ring :: (more ++ [out])) files ≠ .ok (status, files') := by
  have hnone : ∀ n st fs, exportArguments p ((ascText "-export" :: hex :: ring :: (more ++ [out])).getLastD []) n (ring :: (more ++ [out])) st fs = .ub ∨
      exportArguments p ((ascText "-export" :: hex :: ring :: (more ++ [out])).getLastD []) n (ring :: (more ++ [out])) st fs = .fatal := by
    intro n st fs
    cases n with
    | zero => exact .inr (by rw [exportArguments])
    | succ n =>
      obtain ⟨x, l, hx⟩ : ∃ x l, more ++ [out] = x :: l := by cases more with | nil => exact ⟨_, _, rfl⟩ | cons x l => exact ⟨_, _, rfl⟩
      rw [hx]
      refine .inl ?_
      rw [exportArguments, exportArgument, plain_option hring]
      rfl
  unfold keyringCommand
  rw [if_neg (fun h => by simp at h)]
  simp only []
  have hany : (ascText "-export" :: hex :: ring :: (more ++ [out])).dropLast.any (fun a => keyIs (a.drop 1) "export") = true := by
    rw [List.any_eq_true]
    exact ⟨ascText "-export", by simp, by decide +kernel⟩
  rw [hany, if_pos rfl, List.length_cons, exportArguments_export]
  intro h
  cases h1 : exportOne p ((ascText "-export" :: hex :: ring :: (more ++ [out])).getLastD []) (some (hexStringToStringInfo hex)) false files with
  | ub => rw [h1] at h; cases h
  | fatal => rw [h1] at h; cases h
  | ok r =>
    rw [h1, Res.ok_bind] at h
    rcases hnone (hex :: ring :: (more ++ [out])).length r.1 r.2 with h2 | h2
    · rw [h2] at h; cases h
    · rw [h2] at h; cases h

/-- The id in hexadecimal finds the id. -/
theorem hexStringTo_hexOf (s : List Byte) : hexStringToStringInfo (hexOf s) = s := by rw [← hex_spec]; exact C01_hex_round_trip s

/-- **C169** (partial) What an export does before it gives up its arguments: `-export id out` with an id of the default key ring adds that
record to `out`, unless `out` has the id; the other files do not change.  Missing: the return (`C169_export_violated`), a key ring
of the user's choice (`C169_ring_violated`), records of protocol 1.0 (C78). -/
theorem C169_export_partial (p : RingProgram) (hp : GoodProgram p) (files : Files) (out : List Byte) (rs os : List Record) (r : Record)
    (hhome : files p.home = fileOf (p.magick.bytes ++ p.filetype.bytes) rs) (hof : files out = fileOf (p.magick.bytes ++ p.filetype.bytes) os)
    (hrs : ∀ r ∈ rs, r.Fits) (hos : ∀ r ∈ os, r.Fits) (hl : lookup rs r.id = some r) (hnew : ¬ r.Old)
    (hf : printFuel p.magick p.filetype rs p.io + printFuel p.magick p.filetype os p.io + r.encode.length + p.io.sched.length < p.fuel)
    (ht : rs.length < p.turns ∧ os.length < p.turns) :
    ∃ files', exportArguments p out 3 [ascText "-export", hexOf r.id, out] false files = .ok (some (!(lookup os r.id).isSome), files') ∧
      files' out = fileOf (p.magick.bytes ++ p.filetype.bytes) (addRecord os r) ∧ ∀ q, q ≠ out → files' q = files q := by
  have hfit : r.Fits := hrs r (List.mem_of_find?_eq_some hl)
  unfold printFuel at hf
  have hidb : (ringObject p r.id).id.bytes = r.id := by unfold ringObject StringInfo.bytes; exact List.take_left' rfl
  have hidw : (ringObject p r.id).id.WF := by unfold ringObject StringInfo.WF; simp
  have hne : rs ≠ [] := by intro h; subst h; cases hl
  obtain ⟨k', e1, g⟩ := export_got (k := ringObject p r.id) (u := []) hp.header hp.quiet hidw hrs (by rw [hidb]; exact hl) (r := r) (fuel := p.fuel) (turns := p.turns)
    (by omega) ht.1
  rw [List.append_nil] at e1
  have hrec : recordOf k' = r := by
    have hk : k'.id.bytes = r.id := by rw [g.id, hidb]
    have a1 := g.key
    have a2 := g.nonce
    have a3 := g.major
    have a4 := g.minor
    have a5 := g.timestamp
    unfold recordOf
    rw [hk, a1, a2, a3, a4, a5]
  have hkl : k'.key.length = r.key.length := by rw [← g.key, StringInfo.bytes_length g.keyWF]
  have hnl : k'.nonce.length = r.nonce.length := by rw [← g.nonce, StringInfo.bytes_length g.nonceWF]
  have himp : Importable k' := ⟨⟨by rw [g.id]; exact hidw, g.keyWF, g.nonceWF, by rw [g.id]; exact hfit.id, by rw [hkl]; exact hfit.key, by rw [hnl]; exact hfit.nonce⟩,
    by rw [g.major, g.minor]; exact hnew⟩
  have e2 := C43_import p.magick p.filetype hp.header os hos p.io p.io hp.quiet hp.quiet.sched.noFail k' himp p.fuel p.turns
    (by unfold importFuel; rw [hrec]; omega) ht.2
  have hk : k'.id.bytes = r.id := by rw [g.id, hidb]
  rw [hk, hrec] at e2
  refine ⟨withFile files out (fileOf (p.magick.bytes ++ p.filetype.bytes) (addRecord os r)), ?_, withFile_same .., fun q hq => withFile_ne hq⟩
  rw [exportArguments_export, hexStringTo_hexOf]
  unfold exportOne
  simp only []
  rw [hhome, show fileOf (p.magick.bytes ++ p.filetype.bytes) rs = some (ring (p.magick.bytes ++ p.filetype.bytes) rs) from if_neg hne, e1, Res.ok_bind]
  simp only [Bool.true_eq_false, if_false]
  rw [hof, e2, Res.ok_bind, Res.ok_bind]
  rfl

/-- **C169** (violated) A key ring that is also the output is emptied before it is read, and the program dies of what is left. -/
theorem C169_same_violated (p : RingProgram) (hp : GoodProgram p) (files : Files) (name out : List Byte) (hout : Plain out)
    (hf : p.magick.length + p.io.sched.length + 16 < p.fuel) : keyringCommand p [name, out, out] files = .ub := by
  unfold keyringCommand
  rw [if_neg (fun h => by simp at h)]
  simp only []
  have hl : ([out, out] : List (List Byte)).getLastD [] = out := rfl
  have hd : ([out, out] : List (List Byte)).dropLast = [out] := rfl
  rw [hl, hd, show ([out].any fun a => keyIs (a.drop 1) "export") = false by rw [List.any_cons, plain_export hout]; rfl]
  simp only [Bool.false_eq_true, if_false]
  have h1 : listArguments p (withFile files out (some [])) [out, out].length [out, out] true = .ub := by
    show listArguments p (withFile files out (some [])) (1 + 1) [out, out] true = .ub
    rw [listArguments, listArgument_plain hout]
    simp only []
    unfold printRing printKeyringProperties
    rw [withFile_same]
    simp only []
    have hx := expectBytes_short (u := []) (f := openFile [] p.io) hp.header.mWF hp.header.mLt ⟨hp.quiet.sched, hp.quiet.eintr, rfl⟩ hp.header.mPos
      (fuel := p.fuel) (by show p.io.sched.length + _ + 16 < _; omega)
    rw [hx]
    cases hc : canonicalXMLContent p.heap out false with
    | ub => rfl
    | fatal =>
      exfalso
      obtain ⟨c, hc'⟩ := canonical_defined p.heap out
      rw [hc] at hc'; cases hc'
    | ok c => rfl
  rw [h1]
  rfl

/-! ### A case of each -/

/-- A program for examples. -/
def someProgram : RingProgram :=
  ⟨1000, 10, strOf [0x7f, 0x53], strOf [1, 2, 3], ⟨false, [.short 1, .short 3]⟩, fun _ => 0, fun t => decText t.toNat, fun _ => 3, 4,
    fun a => a == ascText "all", fun _ => false, ascText "home.xdm"⟩

theorem someProgram_good : GoodProgram someProgram := by
  refine ⟨header_example, fun t => ?_, quiet_example⟩
  have := decText_length 19 t.toNat (by have := t.isLt; omega)
  have h : wizardPathExtent = 4096 := rfl
  show (decText t.toNat).length < _
  omega

/-- A key ring for examples. -/
def someAsked : Asked := ⟨ascText "a.xdm", ascText "a.xdm", 3, twoRecords⟩

example : Plain someAsked.path ∧ someAsked.path ≠ ascText "out.rdf" ∧
    GoodRing someProgram (fun q => if q = ascText "a.xdm" then some (ring ([0x7f, 0x53] ++ [1, 2, 3]) twoRecords) else none) someAsked := by
  refine ⟨by unfold Plain; decide +kernel, by decide +kernel, ?_⟩
  refine ⟨if_pos rfl, ?_, rfl, ?_, by decide +kernel, by decide +kernel⟩
  · intro r hr
    simp only [someAsked, twoRecords, List.mem_cons, List.not_mem_nil, or_false] at hr
    rcases hr with rfl | rfl
    · exact ⟨by decide, by decide, by decide, fun _ => by decide⟩
    · exact ⟨by decide, by decide, by decide, fun h => absurd h (by decide)⟩
  · show canonicalXMLContent _ (ascText "a.xdm") false = .ok (ascText "a.xdm")
    rw [canonical_text _ _ _ (show ∀ c ∈ ascText "a.xdm", _ from by decide +kernel)]
    decide +kernel

example : Plain (ascText "all") ∧ someProgram.events (ascText "all") = true := by unfold Plain; decide +kernel
example : (ascText "-Export" |>.drop 1).map cLocaleLower = ascText "export" := by decide +kernel

example : lookup twoRecords [0xcd, 0x0f] = some ⟨[0xcd, 0x0f], [], [8, 9], 1, 1, 1700000000⟩ ∧
    ¬ (⟨[0xcd, 0x0f], [], [8, 9], 1, 1, 1700000000⟩ : Record).Old := by decide +kernel

end Wizard.Props
