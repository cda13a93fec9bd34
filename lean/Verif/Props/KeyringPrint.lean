import Verif.Lemmas.KeyringPrint
import Verif.Props.Keyring
import Verif.Props.XmlEscape
import Verif.Props.Hex
/-! The list of the keys of a key ring (C168). -/
namespace Wizard.Props
open Wizard Spec.Hash Spec.Keyring Spec.KeyringPrint

/-- Steps enough for a list. -/
def printFuel (m t : StringInfo) (rs : List Record) (e : IOEnv) : Nat := e.sched.length + (ring (m.bytes ++ t.bytes) rs).length + 16

/-- **C168** `PrintKeyringProperties` on a key ring that holds some records returns True and writes the heading of the key ring and
one entry for each record, in the order of the file, and nothing else, under any schedule of short transfers.  Up to three bytes
behind the last record do not matter. -/
theorem C168_list (m t : StringInfo) (hh : Header m t) (rs : List Record) (hr : ∀ r ∈ rs, r.Fits) (u : List Byte) (hu : u.length < 4)
    (e : IOEnv) (he : Quiet e) (env : PrintEnv) (hs : ShortClock env) (path : List Byte)
    (hp : canonicalXMLContent env.heap env.path false = .ok path) (fuel turns : Nat) (hf : printFuel m t rs e < fuel) (ht : rs.length < turns) :
    printKeyringProperties fuel turns m t env (some (ring (m.bytes ++ t.bytes) rs ++ u)) e =
      .ok (true, listing path env.clock env.mtime env.now (rs.map publicOf)) := by
  have lm := StringInfo.bytes_length hh.mWF
  have lt := StringInfo.bytes_length hh.tWF
  unfold printFuel at hf
  unfold ring at hf ⊢
  simp only [List.length_append] at hf
  rw [List.append_assoc (m.bytes ++ t.bytes)]
  obtain ⟨f, c, l, e1⟩ := print_header (fuel := fuel) (turns := turns) (u := encodeAll rs ++ u) hh he hp (by omega)
  obtain ⟨f', a, b, l', e2⟩ := printLoop_all (fuel := fuel) (turns := turns - rs.length - 1 + 1) hs path rs f 0 0 hr c (by omega)
  rw [show rs.length + (turns - rs.length - 1 + 1) = turns by omega] at e2
  rw [e1, e2, printLoop_end env path a b l'.calm hu (by have := l'.sched; omega), Res.ok_bind, Res.ok_bind, List.append_nil, ringText_eq hs]
  rfl

/-- **C168** No key is told: two key rings that differ in their keys only, even in the lengths of these, give the same list. -/
theorem C168_secret (m t : StringInfo) (hh : Header m t) (rs rs' : List Record) (hr : ∀ r ∈ rs, r.Fits) (hr' : ∀ r ∈ rs', r.Fits)
    (hsame : rs.map publicOf = rs'.map publicOf) (e e' : IOEnv) (he : Quiet e) (he' : Quiet e') (env : PrintEnv) (hs : ShortClock env)
    (path : List Byte) (hp : canonicalXMLContent env.heap env.path false = .ok path) (fuel turns : Nat) (hf : printFuel m t rs e < fuel)
    (hf' : printFuel m t rs' e' < fuel) (ht : rs.length < turns) :
    printKeyringProperties fuel turns m t env (some (ring (m.bytes ++ t.bytes) rs)) e =
      printKeyringProperties fuel turns m t env (some (ring (m.bytes ++ t.bytes) rs')) e' := by
  have hl : rs.length = rs'.length := by simpa using congrArg List.length hsame
  have h1 := C168_list m t hh rs hr [] (by simp) e he env hs path hp fuel turns hf ht
  have h2 := C168_list m t hh rs' hr' [] (by simp) e' he' env hs path hp fuel turns hf' (by omega)
  rw [List.append_nil] at h1 h2
  rw [h1, h2, hsame]

/-- The hexadecimal text has no quotation mark and no `<`. -/
theorem hexOf_safe (s : List Byte) : asc '"' ∉ hexOf s ∧ asc '<' ∉ hexOf s := by
  have key : ∀ b : Byte, asc '"' ∉ hexOfByte b ∧ asc '<' ∉ hexOfByte b := by decide +kernel
  unfold hexOf
  simp only [List.mem_flatMap, not_exists, not_and]
  exact ⟨fun b _ => (key b).1, fun b _ => (key b).2⟩

theorem hexOf_inj {s t : List Byte} (h : hexOf s = hexOf t) : s = t := by
  have := congrArg hexStringToStringInfo h
  rw [← hex_spec, ← hex_spec] at this
  rwa [C01_hex_round_trip, C01_hex_round_trip] at this

/-- Texts without a byte that ends them are told apart. -/
theorem cut_at {c : Byte} {a b x y : List Byte} (ha : c ∉ a) (hb : c ∉ b) (h : a ++ c :: x = b ++ c :: y) : a = b ∧ x = y := by
  induction a generalizing b with
  | nil =>
    cases b with
    | nil => exact ⟨rfl, by simpa using h⟩
    | cons d b =>
      rw [List.nil_append, List.cons_append, List.cons.injEq] at h
      exact absurd (by rw [h.1]; exact List.mem_cons_self) hb
  | cons d a ih =>
    cases b with
    | nil =>
      rw [List.nil_append, List.cons_append, List.cons.injEq] at h
      exact absurd (by rw [h.1]; exact List.mem_cons_self) ha
    | cons d' b =>
      rw [List.cons_append, List.cons_append, List.cons.injEq] at h
      obtain ⟨h1, h2⟩ := ih (fun hm => ha (List.mem_cons_of_mem _ hm)) (fun hm => hb (List.mem_cons_of_mem _ hm)) h.2
      exact ⟨by rw [h.1, h1], h2⟩

theorem decText_inj {a b : Nat} (h : decText a = decText b) : a = b := by
  have := congrArg (digitsVal 10) h
  rwa [decText_val, decText_val] at this

/-- Entries with the same text have the same id, nonce and protocol. -/
theorem entry_inj {path : List Byte} {clock : BitVec 64 → List Byte} (hc : ∀ t, asc '<' ∉ clock t) {a b : Public} {x y : List Byte}
    (h : entry path clock a ++ x = entry path clock b ++ y) : (a.id = b.id ∧ a.nonce = b.nonce ∧ a.major = b.major ∧ a.minor = b.minor ∧
      clock a.timestamp = clock b.timestamp) ∧ x = y := by
  unfold entry at h
  simp only [List.append_assoc] at h
  have dec_safe : ∀ n (c : Byte), c = asc '.' ∨ c = asc '<' → c ∉ decText n := by
    intro n c hcc hm
    have := (decText_bytes n c hm)
    rcases hcc with rfl | rfl
    · revert this; decide
    · revert this; decide
  have q1 : ascText "\">\n    <keyring:memberOf rdf:resource=\"" = asc '"' :: ascText ">\n    <keyring:memberOf rdf:resource=\"" := by decide +kernel
  have q2 : ascText "</keyring:nonce>\n    <keyring:timestamp>" = asc '<' :: ascText "/keyring:nonce>\n    <keyring:timestamp>" := by decide +kernel
  have q3 : ascText "</keyring:timestamp>\n    <keyring:protocol>" = asc '<' :: ascText "/keyring:timestamp>\n    <keyring:protocol>" := by decide +kernel
  have q4 : ascText "." = [asc '.'] := by decide +kernel
  have q5 : ascText "</keyring:protocol>\n  </keyring:Key>\n" = asc '<' :: ascText "/keyring:protocol>\n  </keyring:Key>\n" := by decide +kernel
  rw [q1, q2, q3, q4, q5] at h
  replace h := List.append_cancel_left h
  simp only [List.cons_append, List.nil_append] at h
  obtain ⟨h1, h⟩ := cut_at (hexOf_safe _).1 (hexOf_safe _).1 h
  replace h := List.append_cancel_left (List.append_cancel_left (List.append_cancel_left h))
  obtain ⟨h2, h⟩ := cut_at (hexOf_safe _).2 (hexOf_safe _).2 h
  replace h := List.append_cancel_left h
  obtain ⟨h3, h⟩ := cut_at (hc _) (hc _) h
  replace h := List.append_cancel_left h
  obtain ⟨h4, h⟩ := cut_at (dec_safe _ _ (.inl rfl)) (dec_safe _ _ (.inl rfl)) h
  obtain ⟨h5, h⟩ := cut_at (dec_safe _ _ (.inr rfl)) (dec_safe _ _ (.inr rfl)) h
  exact ⟨⟨hexOf_inj h1, hexOf_inj h2, BitVec.eq_of_toNat_eq (decText_inj h4), BitVec.eq_of_toNat_eq (decText_inj h5), h3⟩, List.append_cancel_left h⟩

/-- **C168** Everything else is told: two lists of the same key ring path and moment are equal only if the key rings have the same
ids, nonces and protocols, in the same order, and times of the same text. -/
theorem C168_told (path : List Byte) (clock : BitVec 64 → List Byte) (hc : ∀ t, asc '<' ∉ clock t) (mtime now : BitVec 64) :
    ∀ ks ks' : List Public, listing path clock mtime now ks = listing path clock mtime now ks' →
      ks.map (fun k => (k.id, k.nonce, k.major, k.minor, clock k.timestamp)) = ks'.map (fun k => (k.id, k.nonce, k.major, k.minor, clock k.timestamp)) := by
  intro ks ks' h
  unfold listing at h
  replace h := List.append_cancel_left h
  have hne : ∀ k : Public, ∀ x, entry path clock k ++ x ≠ [] := by
    intro k x h
    have : (ascText "  <keyring:Key rdf:about=\"") = [] := by
      unfold entry at h
      simp only [List.append_assoc, List.append_eq_nil_iff] at h
      exact h.1
    revert this; decide
  induction ks generalizing ks' with
  | nil =>
    cases ks' with
    | nil => rfl
    | cons k ks' => exact absurd h.symm (by rw [List.flatMap_cons]; exact hne k _)
  | cons k ks ih =>
    cases ks' with
    | nil => exact absurd h (by rw [List.flatMap_cons]; exact hne k _)
    | cons k' ks' =>
      rw [List.flatMap_cons, List.flatMap_cons] at h
      obtain ⟨⟨h1, h2, h3, h4, h5⟩, h⟩ := entry_inj hc h
      rw [List.map_cons, List.map_cons, ih ks' h, h1, h2, h3, h4, h5]

/-- There is a text for every path. -/
theorem canonical_defined (heap : Nat → Byte) (path : List Byte) : ∃ c, canonicalXMLContent heap path false = .ok c := by
  by_cases h : ∃ b ∈ path, isControl b = true
  · obtain ⟨c, hc, _⟩ := C53_binary_violated heap path false h
    exact ⟨c, hc⟩
  · refine ⟨_, canonical_text heap path false (fun c hc => ?_)⟩
    have h1 : isControl c = false := by
      cases h2 : isControl c with
      | false => rfl
      | true => exact absurd ⟨c, hc, h2⟩ h
    have key : ∀ c : Byte, isControl c = false → (32 ≤ c.toNat ∨ c = 9 ∨ c = 10 ∨ c = 13) := by decide +kernel
    exact key c h1

/-- **C168** (violated) A damaged key ring is not reported: wherever a record behind the mark is cut off, and whatever stands in place
of a mark, the path of a file object is asked for after it was given up, and the program dies of it. -/
theorem C168_corrupt_violated (m t : StringInfo) (hh : Header m t) (rs : List Record) (hr : ∀ r ∈ rs, r.Fits) (u : List Byte)
    (hu : (∃ r : Record, r.Fits ∧ u <+: r.encode ∧ 4 ≤ u.length ∧ u.length < r.encode.length) ∨
      (∃ v w, v < 2 ^ 32 ∧ v ≠ 0xabacadab ∧ u = le 4 v ++ w))
    (e : IOEnv) (he : Quiet e) (env : PrintEnv) (hs : ShortClock env) :
    ∃ fuel0, ∀ fuel, fuel0 < fuel → ∀ turns, rs.length < turns →
    printKeyringProperties fuel turns m t env (some (ring (m.bytes ++ t.bytes) rs ++ u)) e = .ub := by
  have lm := StringInfo.bytes_length hh.mWF
  have lt := StringInfo.bytes_length hh.tWF
  have main : ∀ n, (∀ fuel a b f, Calm f u → f.sched.length + n + 16 < fuel → ∀ path turns, printLoop fuel env path (turns + 1) a b f = .ub) →
      ∃ fuel0, ∀ fuel, fuel0 < fuel → ∀ turns, rs.length < turns →
        printKeyringProperties fuel turns m t env (some (ring (m.bytes ++ t.bytes) rs ++ u)) e = .ub := by
    intro n hn
    refine ⟨printFuel m t rs e + n, fun fuel hf turns ht => ?_⟩
    unfold printFuel at hf
    unfold ring at hf ⊢
    simp only [List.length_append] at hf
    rw [List.append_assoc (m.bytes ++ t.bytes)]
    cases hp : canonicalXMLContent env.heap env.path false with
    | ub => unfold printKeyringProperties; simp only []; rw [hp]; rfl
    | fatal =>
      exfalso
      obtain ⟨c, hc⟩ := canonical_defined env.heap env.path
      rw [hp] at hc; cases hc
    | ok path =>
      obtain ⟨f, c, l, e1⟩ := print_header (fuel := fuel) (turns := turns) (u := encodeAll rs ++ u) hh he hp (by omega)
      obtain ⟨f', a, b, l', e2⟩ := printLoop_all (fuel := fuel) (turns := turns - rs.length - 1 + 1) hs path rs f 0 0 hr c (by omega)
      rw [show rs.length + (turns - rs.length - 1 + 1) = turns by omega] at e2
      rw [e1, e2, hn fuel a b f' l'.calm (by have := l'.sched; omega)]
      rfl
  rcases hu with ⟨r, h1, h2, h3, h4⟩ | ⟨v, w, h1, h2, rfl⟩
  · exact main r.encode.length (fun fuel a b f hc hf path turns => printLoop_torn hs path a b h1 hc h2 h3 h4 hf)
  · exact main 0 (fun fuel a b f hc hf path turns => printLoop_bad env path a b hc h1 h2 (by omega))

/-- **C168** (violated) A key ring that is not there, or cannot be opened, counts as listed: the status is True and nothing is written. -/
theorem C168_missing_violated (m t : StringInfo) (e : IOEnv) (env : PrintEnv) (fuel turns : Nat) :
    printKeyringProperties fuel turns m t env none e = .ok (true, []) := rfl

/-! ### A case of each -/

/-- Two records, one of protocol 1.0. -/
def twoRecords : List Record := [⟨[0xab], [1, 2, 3], [7], 1, 0, 5⟩, ⟨[0xcd, 0x0f], [], [8, 9], 1, 1, 1700000000⟩]

example : ∀ r ∈ twoRecords, r.Fits := by
  intro r hr
  simp only [twoRecords, List.mem_cons, List.not_mem_nil, or_false] at hr
  rcases hr with rfl | rfl
  · exact ⟨by decide, by decide, by decide, fun _ => by decide⟩
  · exact ⟨by decide, by decide, by decide, fun h => absurd h (by decide)⟩

example : ∃ r : Record, r.Fits ∧ (⟨[0xab], [1, 2, 3], [7], 1, 1, 5⟩ : Record).encode.take 9 <+: r.encode ∧
    4 ≤ ((⟨[0xab], [1, 2, 3], [7], 1, 1, 5⟩ : Record).encode.take 9).length ∧
    ((⟨[0xab], [1, 2, 3], [7], 1, 1, 5⟩ : Record).encode.take 9).length < r.encode.length :=
  ⟨⟨[0xab], [1, 2, 3], [7], 1, 1, 5⟩, ⟨by decide, by decide, by decide, fun h => absurd h (by decide)⟩, List.take_prefix .., by decide, by decide⟩

/-- A clock for examples. -/
def someEnv : PrintEnv := ⟨ascText "a&b.xdm", fun _ => 0, fun t => decText t.toNat, 3, 4⟩

example : ShortClock someEnv := by
  intro t
  have := decText_length 19 t.toNat (by have := t.isLt; omega)
  have h : wizardPathExtent = 4096 := rfl
  show (decText t.toNat).length < _
  omega

example : canonicalXMLContent someEnv.heap someEnv.path false = .ok (ascText "a&amp;b.xdm") := by
  show canonicalXMLContent _ (ascText "a&b.xdm") false = _
  rw [canonical_text _ _ _ (show ∀ c ∈ ascText "a&b.xdm", _ from by decide +kernel)]
  decide +kernel

/-- The entry of the first record. -/
example : entry (ascText "a&amp;b.xdm") someEnv.clock (publicOf (twoRecords.headD ⟨[], [], [], 0, 0, 0⟩)) =
    ascText ("  <keyring:Key rdf:about=\"ab\">\n    <keyring:memberOf rdf:resource=\"a&amp;b.xdm\"/>\n    <keyring:nonce>07</keyring:nonce>\n" ++
      "    <keyring:timestamp>5</keyring:timestamp>\n    <keyring:protocol>1.0</keyring:protocol>\n  </keyring:Key>\n") := by
  decide +kernel

end Wizard.Props
