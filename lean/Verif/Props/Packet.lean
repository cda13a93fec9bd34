import Verif.Lemmas.Packet
/-! C152, C153: the packet with the settings of an enciphered file. -/
namespace Wizard.Props
open Wizard Wizard.Spec.Xml Wizard.XmlP
open Wizard.Spec.Packet (Text OneOf Recordable Usual)
open Wizard.Spec.Opt (named Item)

section
variable (env : PacketEnv) (hj : env.junk.length = 4096) (s : Settings)
include hj

theorem set_type {v : BitVec 64} (h : OneOf cipherOptions v) : packetSet env .type (optionToMnemonic cipherOptions v) s = .ok ({ s with cipher := v }, false) := by
  unfold packetSet; rw [option_read env hj (by simp) h]; rfl

theorem set_mode {v : BitVec 64} (h : OneOf modeOptions v) : packetSet env .mode (optionToMnemonic modeOptions v) s = .ok ({ s with mode := v }, false) := by
  unfold packetSet; rw [option_read env hj (by simp) h]; rfl

theorem set_authenticate {v : BitVec 64} (h : OneOf authenticateOptions v) :
    packetSet env .authenticate (optionToMnemonic authenticateOptions v) s = .ok ({ s with authenticate := v }, false) := by
  unfold packetSet; rw [option_read env hj (by simp) h]; rfl

theorem set_keyHash {v : BitVec 64} (h : OneOf hashOptions v) : packetSet env .keyHash (optionToMnemonic hashOptions v) s = .ok ({ s with keyHash := v }, false) := by
  unfold packetSet; rw [option_read env hj (by simp) h]; rfl

theorem set_hmac {v : BitVec 64} (h : OneOf hashOptions v) : packetSet env .hmac (optionToMnemonic hashOptions v) s = .ok ({ s with hmac := v }, false) := by
  unfold packetSet; rw [option_read env hj (by simp) h]; rfl

theorem set_entropy {v : BitVec 64} (h : OneOf entropyOptions v) : packetSet env .entropy (optionToMnemonic entropyOptions v) s = .ok ({ s with entropy := v }, false) := by
  unfold packetSet; rw [option_read env hj (by simp) h]; rfl

theorem set_level {l : BitVec 32} (h : l.toNat ≤ 9) : packetSet env .level (decText l.toNat) s = .ok ({ s with level := l }, false) := by
  unfold packetSet
  rw [level_read env hj l h]
  show Res.ok (({ s with level := (BitVec.ofNat 64 l.toNat).setWidth 32 } : Settings), false) = _
  rw [show (BitVec.ofNat 64 l.toNat).setWidth 32 = l by apply BitVec.eq_of_toNat_eq; simp]

end

theorem set_keyLength (env : PacketEnv) (s : Settings) (n : BitVec 32) : packetSet env .keyLength (decText n.toNat) s = .ok ({ s with keyLength := n }, false) := by
  have := n.isLt
  unfold packetSet
  rw [strtol_dec (show n.toNat < 2 ^ 63 by omega), Int.toNat_natCast, BitVec.ofNat_toNat, BitVec.setWidth_eq]

theorem set_chunksize (env : PacketEnv) (s : Settings) {n : Nat} (h : n < 2 ^ 63) : packetSet env .chunksize (decText n) s = .ok ({ s with chunksize := n % 2 ^ 32 }, false) := by
  unfold packetSet
  rw [strtol_dec h, Int.toNat_natCast]

theorem set_other (env : PacketEnv) (s : Settings) (v : List Byte) : packetSet env .other v s = .ok (s, false) := rfl

theorem set_version (env : PacketEnv) (s : Settings) (v : List Byte) : packetSet env .version v s = .ok ({ s with version := v }, false) := rfl

theorem settings_read (env env' : PacketEnv) (hj : env'.junk.length = 4096) (s s0 : Settings) (hs : Recordable { s with chunksize := 0 }) (hc : s.chunksize < 2 ^ 63) :
    packetNodes env' ((packetFields env s).map fun f => (bytes "cipher:" ++ f.1, f.2)) s0 false = .ok (some ({ s with chunksize := s.chunksize % 2 ^ 32 }, false)) := by
  unfold packetFields
  simp only [List.map_cons, List.map_nil]
  rw [node_step env' .type _ _ _ _ _ (by decide +kernel) (set_type env' hj _ hs.cipher)]
  rw [node_step env' .mode _ _ _ _ _ (by decide +kernel) (set_mode env' hj _ hs.mode)]
  rw [node_step env' .nonce _ _ _ _ _ (by decide +kernel) rfl]
  rw [node_step env' .authenticate _ _ _ _ _ (by decide +kernel) (set_authenticate env' hj _ hs.authenticate)]
  rw [node_step env' .id _ _ _ _ _ (by decide +kernel) rfl]
  rw [node_step env' .keyHash _ _ _ _ _ (by decide +kernel) (set_keyHash env' hj _ hs.keyHash)]
  rw [node_step env' .keyLength _ _ _ _ _ (by decide +kernel) (set_keyLength env' _ _)]
  rw [node_step env' .entropy _ _ _ _ _ (by decide +kernel) (set_entropy env' hj _ hs.entropy)]
  rw [node_step env' .level _ _ _ _ _ (by decide +kernel) (set_level env' hj _ hs.level)]
  rw [node_step env' .hmac _ _ _ _ _ (by decide +kernel) (set_hmac env' hj _ hs.hmac)]
  rw [node_step env' .chunksize _ _ _ _ _ (by decide +kernel) (set_chunksize env' _ hc)]
  rw [node_step env' .other _ _ _ _ _ (by decide +kernel) (set_other env' _ _)]
  rw [node_step env' .other _ _ _ _ _ (by decide +kernel) (set_other env' _ _)]
  rw [node_step env' .other _ _ _ _ _ (by decide +kernel) (set_other env' _ _)]
  rw [node_step env' .other _ _ _ _ _ (by decide +kernel) (set_other env' _ _)]
  rw [node_step env' .version _ _ _ _ _ (by decide +kernel) (set_version env' _ _)]
  rw [packetNodes]

/-! ### The start of the packet -/

/-- The letters of a key. -/
def KeyLetters (k : List Byte) : Prop := (∀ c ∈ k, isAlnumC c = true) ∧ k ≠ [] ∧ k.length < 4096

theorem alnum_facts : ∀ c : Byte, isAlnumC c = true → isGraphC c = true ∧ isSpace c = false ∧ c ≠ asc '>' ∧ c ≠ asc '=' ∧ c ≠ 0 := by decide +kernel

theorem packet_key_scan {k t : List Byte} (hk : ∀ c ∈ k, isAlnumC c = true) {d : Byte} (hd : isSpace d = true ∨ d = asc '=') :
    (k ++ d :: t).takeWhile (fun x => !isSpace x && x != asc '=') = k ∧ (k ++ d :: t).dropWhile (fun x => !isSpace x && x != asc '=') = d :: t := by
  have h1 : ∀ c ∈ k, (!isSpace c && c != asc '=') = true := fun c hc => by
    obtain ⟨_, h, _, h', _⟩ := alnum_facts c (hk c hc)
    rw [h]; simpa using h'
  have h2 : (!isSpace d && d != asc '=') = false := by
    rcases hd with h | h
    · rw [h]; rfl
    · rw [h]; rfl
  constructor
  · rw [List.takeWhile_append_of_pos h1, List.takeWhile_cons, h2]; simp
  · rw [List.dropWhile_append_of_pos h1, List.dropWhile_cons, h2]; simp

theorem packet_scan_key {k p : List Byte} (h : PacketHead) (hk : KeyLetters k) {d : Byte} {t : List Byte} (e : p = k ++ d :: t) (hd : isSpace d = true ∨ d = asc '=') :
    packetScan h p = packetScan (packetInterpret k (packetPair p).2.1 h) (digestSkip (packetPair p).2.2) := by
  have hkey : (packetPair p).1 = k := by
    have := (packet_key_scan (t := t) hk.1 hd).1
    unfold packetPair
    rw [e, this]
    simp only []
    split
    · rfl
    · split <;> rfl
  obtain ⟨h1, h2, h3⟩ := hk
  have hp : p ≠ [] := by rw [e]; simp
  obtain ⟨c, k', rfl⟩ := List.exists_cons_of_ne_nil h2
  have ep : p = c :: (k' ++ d :: t) := e
  obtain ⟨a1, a2, a3, a4, _⟩ := alnum_facts c (h1 c List.mem_cons_self)
  rw [packetScan.eq_def, ep]
  rw [ep] at hkey
  simp only []
  rw [if_neg a3, if_neg (by rw [a1]; decide), if_neg (by rw [h1 c List.mem_cons_self]; decide), dif_pos (by rw [a2]; simpa using a4), if_neg (by rw [hkey, show wizardPathExtent = 4096 from rfl]; omega), hkey]

theorem packet_scan_word (h : PacketHead) {k t : List Byte} (hk : KeyLetters k) {c : Byte} (h1 : isSpace c = false) (h2 : c ≠ asc '=') :
    packetScan h (k ++ 32 :: c :: t) = packetScan (packetInterpret k [] h) (c :: t) := by
  rw [packet_scan_key h hk rfl (.inl (by decide))]
  have : packetPair (k ++ 32 :: c :: t) = (k, [], c :: t) := by
    have e := packet_key_scan (t := c :: t) hk.1 (d := 32) (.inl (by decide))
    unfold packetPair
    rw [e.1, e.2]
    simp only []
    rw [show digestSkip (32 :: c :: t) = c :: t from skip_blanks (sp := [32]) (by decide) (by simpa using h1)]
    simp only [if_neg h2]
  rw [this, skip_mark h1]

theorem packet_scan_value (h : PacketHead) {k v t : List Byte} (hk : KeyLetters k) {d : Byte} (hv : ∀ c ∈ v, isSpace c = false ∧ c ≠ asc '?') (hne : v ≠ []) (hd : isSpace d = true ∨ d = asc '?') :
    packetScan h (k ++ asc '=' :: (v ++ d :: t)) = packetScan (packetInterpret k v h) (digestSkip (d :: t)) := by
  rw [packet_scan_key h hk rfl (.inr rfl)]
  have : packetPair (k ++ asc '=' :: (v ++ d :: t)) = (k, v, d :: t) := by
    have e := packet_key_scan (t := v ++ d :: t) hk.1 (d := asc '=') (.inr rfl)
    unfold packetPair
    rw [e.1, e.2]
    simp only []
    rw [skip_mark (by decide)]
    simp only [if_pos]
    obtain ⟨c, w, rfl⟩ := List.exists_cons_of_ne_nil hne
    rw [List.cons_append, packetValue, if_neg (hv c List.mem_cons_self).2]
    have h1 : ∀ c ∈ w, (!isSpace c && c != asc '?') = true := fun c hc => by
      obtain ⟨h, h'⟩ := hv c (List.mem_cons_of_mem _ hc)
      rw [h]; simpa using h'
    have h2 : (!isSpace d && d != asc '?') = false := by
      rcases hd with h | h
      · rw [h]; rfl
      · rw [h]; rfl
    rw [List.takeWhile_append_of_pos h1, List.dropWhile_append_of_pos h1, List.takeWhile_cons, List.dropWhile_cons, h2]
    simp
  rw [this]

theorem packet_scan_mark (h : PacketHead) {c : Byte} {r : List Byte} (h1 : isGraphC c = true) (h2 : isAlnumC c = false) (h3 : c ≠ asc '>') : packetScan h (c :: r) = packetScan h (digestSkip r) := by
  rw [packetScan.eq_def]
  simp only []
  rw [if_neg h3, if_neg (by rw [h1]; decide), if_pos h2]

theorem packet_scan_end (h : PacketHead) (r : List Byte) : packetScan h (asc '>' :: r) = .head h r := by
  rw [packetScan.eq_def]; simp

theorem cText_whole {s : List Byte} (h : (0 : Byte) ∉ s) : cText s = s := by
  unfold cText
  rw [← List.append_nil s, List.takeWhile_append_of_pos (fun c hc => by rw [bne_iff_ne]; rintro rfl; exact h hc)]; simp

theorem interpret_bytes (h : PacketHead) {n : Nat} (hn : n < 2 ^ 63) (h0 : (0 : Byte) ∉ (34 :: (decText n ++ [34]) : List Byte)) :
    packetInterpret (ascText "bytes") (34 :: (decText n ++ [34])) h = { h with bytes := n } := by
  have hg : ∀ c ∈ decText n, Spec.DigestFile.Graphic c := fun c hc => by
    obtain ⟨_, a, b, _⟩ := decText_bytes n c hc
    exact ⟨a, by omega⟩
  have e : (BitVec.ofInt 64 (n : Int)).toNat = n := by
    rw [BitVec.ofInt_natCast, BitVec.toNat_ofNat]; exact Nat.mod_eq_of_lt (by omega)
  rw [packetInterpret, if_pos (by decide +kernel), cText_whole h0, strip_quoted (decText_ne n) hg, strtol_dec hn, e]

theorem interpret_digest (h : PacketHead) {d : List Byte} (h0 : (0 : Byte) ∉ (34 :: (d ++ [34]) : List Byte)) (h1 : d ≠ []) (h2 : ∀ c ∈ d, Spec.DigestFile.Graphic c) :
    packetInterpret (ascText "digest") (34 :: (d ++ [34])) h = { h with digest := some d } := by
  rw [packetInterpret, if_neg (by decide +kernel), if_pos (by decide +kernel), cText_whole h0, strip_quoted h1 h2]

theorem interpret_mark (h : PacketHead) : packetInterpret (ascText "cipherpacket") [] h = h := by
  rw [packetInterpret, if_neg (by decide +kernel), if_neg (by decide +kernel)]

theorem skip_none {r : List Byte} (h : ∀ c, r.head? = some c → isSpace c = false) : digestSkip r = r := by
  cases r with
  | nil => rfl
  | cons c r => exact skip_mark (h c rfl)

theorem ascText_head (k t : List Byte) (h : (k.head?.any fun c => !isSpace c) = true) : ∀ c, (k ++ t).head? = some c → isSpace c = false := by
  intro c hc
  cases k with
  | nil => simp at h
  | cons d k => cases hc; simpa using h

theorem keyLetters_of {k : List Byte} (h : ((k.all isAlnumC) && !k.isEmpty && decide (k.length < 4096)) = true) : KeyLetters k := by
  simp only [Bool.and_eq_true, List.all_eq_true, Bool.not_eq_true', decide_eq_true_eq] at h
  exact ⟨h.1.1, fun e => by rw [e] at h; simp at h, h.2⟩

theorem head_tail (h : PacketHead) {digest : List Byte} (h1 : digest ≠ []) (hd : ∀ c ∈ (34 :: (digest ++ [34]) : List Byte), isSpace c = false ∧ c ≠ asc '?') (hd0 : (0 : Byte) ∉ (34 :: (digest ++ [34]) : List Byte))
    (hg : ∀ c ∈ digest, Spec.DigestFile.Graphic c) {n : Nat} (hn : n < 2 ^ 63) (hb : ∀ c ∈ (34 :: (decText n ++ [34]) : List Byte), isSpace c = false ∧ c ≠ asc '?')
    (hb0 : (0 : Byte) ∉ (34 :: (decText n ++ [34]) : List Byte)) (rest : List Byte) :
    packetScan h (asc 'd' :: (ascText "igest" ++ asc '=' :: ((34 :: (digest ++ [34])) ++ 32 :: (ascText "bytes" ++ asc '=' :: ((34 :: (decText n ++ [34])) ++ asc '?' :: (asc '>' :: 10 :: rest)))))) =
      .head ⟨n, some digest⟩ (10 :: rest) := by
  have e : ∀ t, asc 'd' :: (ascText "igest" ++ t) = ascText "digest" ++ t := by
    intro t
    rw [show ascText "digest" = asc 'd' :: ascText "igest" by decide +kernel]; rfl
  have s1 : ∀ t, digestSkip (32 :: (ascText "bytes" ++ t)) = ascText "bytes" ++ t := fun t => skip_blanks (sp := [32]) (by decide) (ascText_head (ascText "bytes") t (by decide +kernel))
  rw [e]
  rw [packet_scan_value h (k := ascText "digest") (v := 34 :: (digest ++ [34])) (keyLetters_of (by decide +kernel)) hd (by simp) (.inl (by decide))]
  rw [s1, packet_scan_value _ (k := ascText "bytes") (v := 34 :: (decText n ++ [34])) (keyLetters_of (by decide +kernel)) hb (by simp) (.inr rfl), skip_mark (by decide)]
  rw [packet_scan_mark _ (by decide) (by decide) (by decide), skip_mark (by decide), packet_scan_end]
  rw [interpret_bytes _ hn hb0, interpret_digest _ hd0 h1 hg]

theorem head_scan {digest : List Byte} (h1 : digest ≠ []) (h2 : ∀ c ∈ digest, 33 ≤ c.toNat ∧ c.toNat ≤ 126 ∧ c ≠ 34 ∧ c ≠ 39 ∧ c ≠ 63) {n : Nat} (hn : n < 2 ^ 63) (rest : List Byte) :
    packetScan ⟨0, none⟩ (ascText "<?cipherpacket digest=\"" ++ digest ++ ascText "\" bytes=\"" ++ decText n ++ ascText "\"?>\n" ++ rest) = .head ⟨n, some digest⟩ (10 :: rest) := by
  have e : ascText "<?cipherpacket digest=\"" ++ digest ++ ascText "\" bytes=\"" ++ decText n ++ ascText "\"?>\n" ++ rest =
      asc '<' :: asc '?' :: (ascText "cipherpacket" ++ 32 :: asc 'd' :: (ascText "igest" ++ asc '=' :: ((34 :: (digest ++ [34])) ++ 32 ::
        (ascText "bytes" ++ asc '=' :: ((34 :: (decText n ++ [34])) ++ asc '?' :: (asc '>' :: 10 :: rest)))))) := by
    rw [show ascText "<?cipherpacket digest=\"" = asc '<' :: asc '?' :: (ascText "cipherpacket" ++ 32 :: asc 'd' :: (ascText "igest" ++ [asc '=', 34])) by decide +kernel,
      show ascText "\" bytes=\"" = 34 :: 32 :: (ascText "bytes" ++ [asc '=', 34]) by decide +kernel, show ascText "\"?>\n" = [34, asc '?', asc '>', 10] by decide +kernel]
    simp
  have gr : ∀ c : Byte, 33 ≤ c.toNat → c.toNat ≤ 126 → isSpace c = false ∧ c ≠ 0 := by decide +kernel
  have hq : ∀ (v : List Byte), (∀ c ∈ v, 33 ≤ c.toNat ∧ c.toNat ≤ 126 ∧ c ≠ 63) → (∀ c ∈ (34 :: (v ++ [34]) : List Byte), isSpace c = false ∧ c ≠ asc '?') ∧ (0 : Byte) ∉ (34 :: (v ++ [34]) : List Byte) := by
    intro v hv
    constructor
    · intro c hc
      rcases List.mem_cons.1 hc with rfl | hc
      · exact ⟨by decide, by decide⟩
      · rcases List.mem_append.1 hc with hc | hc
        · obtain ⟨a, b, d⟩ := hv c hc
          exact ⟨(gr c a b).1, d⟩
        · rw [List.mem_singleton] at hc; subst hc; exact ⟨by decide, by decide⟩
    · intro hc
      rcases List.mem_cons.1 hc with hc | hc
      · exact absurd hc (by decide)
      · rcases List.mem_append.1 hc with hc | hc
        · exact absurd (hv 0 hc).1 (by decide)
        · exact absurd (List.mem_singleton.1 hc) (by decide)
  have hd := hq digest fun c hc => ⟨(h2 c hc).1, (h2 c hc).2.1, (h2 c hc).2.2.2.2⟩
  have hdec : ∀ c ∈ decText n, 33 ≤ c.toNat ∧ c.toNat ≤ 126 ∧ c ≠ 63 := fun c hc => by
    obtain ⟨_, a, b, _⟩ := decText_bytes n c hc
    exact ⟨a, by omega, fun e => by rw [e] at b; exact absurd b (by decide)⟩
  have hb := hq (decText n) hdec
  have hT := head_tail ⟨0, none⟩ h1 hd.1 hd.2 (fun c hc => ⟨(h2 c hc).1, (h2 c hc).2.1⟩) hn hb.1 hb.2 rest
  rw [e, packet_scan_mark _ (by decide) (by decide) (by decide), skip_mark (by decide), packet_scan_mark _ (by decide) (by decide) (by decide)]
  rw [skip_none (r := ascText "cipherpacket" ++ _) (ascText_head _ _ (by decide +kernel))]
  rw [packet_scan_word _ (k := ascText "cipherpacket") (keyLetters_of (by decide +kernel)) (by decide) (by decide), interpret_mark]
  exact hT

/-! ### The packet -/

theorem line_length (f : List Byte × List Byte) : (packetLine f).length ≤ 4095 := by
  unfold packetLine inMessage
  rw [List.length_take]
  exact Nat.le_trans (Nat.min_le_left _ _) (by decide)

theorem lines_length (fs : List (List Byte × List Byte)) : (fs.flatMap packetLine).length ≤ 4095 * fs.length := by
  induction fs with
  | nil => simp
  | cons f fs ih =>
    rw [List.flatMap_cons, List.length_append, List.length_cons]
    have := line_length f
    omega

theorem rdf_length (env : PacketEnv) (s : Settings) {name : List Byte} (h : name.length < 2 ^ 31) : 0 < (packetRdf env s name).length ∧ (packetRdf env s name).length < 2 ^ 32 := by
  have hl := lines_length (packetFields env s)
  rw [show (packetFields env s).length = 16 from rfl] at hl
  have k1 : (ascText "<rdf:RDF xmlns:rdf=\"http://www.w3.org/1999/02/22-rdf-syntax-ns#\"\n").length = 65 := by decide +kernel
  have k2 : (ascText "         xmlns:cipher=\"https://urban-warrior.org/WizardsToolkit/cipher/1.0/\">\n").length = 78 := by decide +kernel
  have k3 : (ascText "  <cipher:Content rdf:about=\"").length = 29 := by decide +kernel
  have k4 : (ascText "\">\n").length = 3 := by decide +kernel
  have k5 : (ascText "  </cipher:Content>\n").length = 20 := by decide +kernel
  have k6 : (ascText "</rdf:RDF>\n").length = 11 := by decide +kernel
  unfold packetRdf
  simp only [List.length_append, k1, k2, k3, k4, k5, k6]
  omega

theorem packet_head (env : PacketEnv) (hu : Usual env) (s : Settings) {name : List Byte} (hl : name.length < 2 ^ 31) :
    inMessage (ascText "<?cipherpacket digest=\"" ++ env.hex (packetRdf env s name) ++ ascText "\" bytes=\"" ++ decText ((packetRdf env s name).length % 2 ^ 32) ++ ascText "\"?>\n") =
      ascText "<?cipherpacket digest=\"" ++ env.hex (packetRdf env s name) ++ ascText "\" bytes=\"" ++ decText (packetRdf env s name).length ++ ascText "\"?>\n" := by
  obtain ⟨l0, l1⟩ := rdf_length env s hl
  obtain ⟨x1, x2, x3⟩ := hu.hex (packetRdf env s name)
  rw [Nat.mod_eq_of_lt l1]
  unfold inMessage
  apply List.take_of_length_le
  have k1 : (ascText "<?cipherpacket digest=\"").length = 23 := by decide +kernel
  have k2 : (ascText "\" bytes=\"").length = 9 := by decide +kernel
  have k3 : (ascText "\"?>\n").length = 4 := by decide +kernel
  have k4 := decText_length 9 (packetRdf env s name).length (by omega)
  simp only [List.length_append, k1, k2, k3, show wizardPathExtent = 4096 from rfl]
  omega

/-- What `GetContentInfo` does with a packet whose settings are read as `r`. -/
theorem packet_begin (env env' : PacketEnv) (hu : Usual env) (hh : env'.hex = env.hex) (s s0 : Settings) {name : List Byte} (hl : name.length < 2 ^ 31) (body : List Byte) (fuel : Nat)
    (h0 : (0 : Byte) ∉ packetRdf env s name) {r : XmlRoot} {n : XmlOpen} {k : XmlKids} (ht : newXMLTree env'.xml fuel (packetRdf env s name) = .ok (some (r, true))) (hr : r.tree = some n)
    (hk : kidNamed (ascText "cipher:Content") n.kids = some k) :
    getContentInfo env' fuel s0 (cipherPacket env s name ++ body) = (packetNodes env' (kidFirsts [] k) s0 false).bind fun o => match o with
      | none => .ok .forever
      | some (s, x) => .ok (.settings s x body) := by
  obtain ⟨l0, l1⟩ := rdf_length env s hl
  obtain ⟨x1, x2, x3⟩ := hu.hex (packetRdf env s name)
  have hm := packet_head env hu s hl
  have hf : cipherPacket env s name ++ body = ascText "<?cipherpacket digest=\"" ++ env.hex (packetRdf env s name) ++ ascText "\" bytes=\"" ++ decText (packetRdf env s name).length ++ ascText "\"?>\n" ++
      (packetRdf env s name ++ (ascText "<?cipherpacket?>" ++ ([12, 10] ++ body))) := by
    unfold cipherPacket
    rw [hm]
    simp only [List.append_assoc]
  have hp : packetText env' (packetRdf env s name).length (packetRdf env s name ++ (ascText "<?cipherpacket?>" ++ ([12, 10] ++ body))) = packetRdf env s name := by
    unfold packetText
    rw [List.take_left' rfl, Nat.sub_self]
    simp
  have hb : packetTrailer (some 10) (ascText "<?cipherpacket?>" ++ ([12, 10] ++ body)) = body := by
    unfold packetTrailer
    simp only []
    rw [if_neg (by decide), show ascText "<?cipherpacket?>" = ascText "<?cipherpacket?" ++ [asc '>'] by decide +kernel, List.append_assoc,
      List.dropWhile_append_of_pos (p := fun x => x != asc '>') (l₁ := ascText "<?cipherpacket?") (by decide +kernel)]
    simp
  rw [hf, getContentInfo, head_scan x1 x3 (Nat.lt_trans l1 (by decide)) _]
  simp only []
  rw [if_neg (by omega), if_neg (by omega), List.drop_one, List.tail_cons, hp, if_neg (by rw [hh]; simp), cText_whole h0, ht, Res.ok_bind]
  simp only []
  rw [hr]
  simp only [Option.bind_some]
  rw [hk]
  simp only [Option.orElse_some]
  rw [List.drop_left' rfl, List.head?_cons, hb]
  rfl

theorem rdf_no_nul (env : PacketEnv) (s : Settings) (name : List Byte) (h : ∀ f ∈ packetFields env s, FieldOK f) (hn : (0 : Byte) ∉ name) : (0 : Byte) ∉ packetRdf env s name := by
  have k : ∀ t ∈ [ascText "<rdf:RDF xmlns:rdf=\"http://www.w3.org/1999/02/22-rdf-syntax-ns#\"\n", ascText "         xmlns:cipher=\"https://urban-warrior.org/WizardsToolkit/cipher/1.0/\">\n",
      ascText "  <cipher:Content rdf:about=\"", ascText "\">\n", ascText "  </cipher:Content>\n", ascText "</rdf:RDF>\n", ascText "    <cipher:", ascText ">", ascText "</cipher:", ascText ">\n",
      bytes "cipher:"], (0 : Byte) ∉ t := by decide +kernel
  have hl : (0 : Byte) ∉ (packetFields env s).flatMap packetLine := by
    intro h0
    obtain ⟨f, hf, hm⟩ := List.mem_flatMap.1 h0
    obtain ⟨⟨_, h1⟩, _, _, _, h3⟩ := h f hf
    have ht : (0 : Byte) ∉ f.1 := fun h0 => by
      exact absurd (h1 0 (List.mem_append_right _ h0)) (by unfold NameByte NameStart Letter; decide)
    have hv : (0 : Byte) ∉ f.2 := fun h0 => absurd (h3 0 h0).1 (by decide)
    rw [line_whole (h f hf)] at hm
    simp only [List.mem_append] at hm
    rcases hm with (((((hm | hm) | hm) | hm) | hm) | hm) | hm
    · exact k _ (by simp) hm
    · exact ht hm
    · exact k _ (by simp) hm
    · exact hv hm
    · exact k _ (by simp) hm
    · exact ht hm
    · exact k _ (by simp) hm
  unfold packetRdf
  simp only [List.mem_append, not_or]
  exact ⟨⟨⟨⟨⟨k _ (by simp), k _ (by simp)⟩, ⟨k _ (by simp), hn⟩, k _ (by simp)⟩, hl⟩, k _ (by simp)⟩, k _ (by simp)⟩

theorem fields_nodup (env : PacketEnv) (s : Settings) : ((packetFields env s).map fun f => bytes "cipher:" ++ f.1).Nodup := by
  have : (packetFields env s).map (fun f => bytes "cipher:" ++ f.1) = [ascText "type", ascText "mode", ascText "nonce", ascText "authenticate", ascText "id", ascText "key-hash", ascText "key-length",
    ascText "entropy", ascText "level", ascText "hmac", ascText "chunksize", ascText "modify-date", ascText "create-date", ascText "timestamp", ascText "protocol", ascText "version"].map (bytes "cipher:" ++ ·) := rfl
  rw [this]
  decide +kernel

theorem packet_settings (env env' : PacketEnv) (hu : Usual env) (hj : env'.junk.length = 4096) (hh : env'.hex = env.hex) (s s0 : Settings) (hs : Recordable { s with chunksize := 0 })
    (hc : s.chunksize < 2 ^ 63) {name : List Byte} (hn : Spec.Packet.Name name) (body : List Byte) :
    ∃ N, ∀ fuel ≥ N, getContentInfo env' fuel s0 (cipherPacket env s name ++ body) = .ok (.settings { s with chunksize := s.chunksize % 2 ^ 32 } false body) := by
  have hf := packet_fields_ok env hu s hs hc
  obtain ⟨r, n, k, ⟨N, h1⟩, h2, h3, h4⟩ := packet_read env'.xml (packetFields env s) hf name hn.2
  refine ⟨N, fun fuel hN => ?_⟩
  have h1 := h1 fuel hN
  rw [← packet_render env s name hf] at h1
  rw [packet_begin env env' hu hh s s0 hn.1 body fuel (rdf_no_nul env s name hf fun h0 => absurd (hn.2 0 h0).1 (by decide)) h1 h2 h3]
  rw [firsts_of (packetFields env s) k [] h4 (fields_nodup env s) (fun f _ => List.not_mem_nil), settings_read env env' hj s s0 hs hc]
  rfl

/-- **C152** (partial): what `encipher` records in front of a file is what `decipher` finds there: every setting, without complaint, and behind it the enciphered content, whatever settings
there were before, whenever and wherever it is read. What is missing: chunks of 4 GiB or more, texts with control characters, `<` and `&`, and names of files with control characters, `<`, `&`
and quotes. -/
theorem C152_settings_partial (env env' : PacketEnv) (hu : Usual env) (hj : env'.junk.length = 4096) (hh : env'.hex = env.hex) (s s0 : Settings) (hs : Recordable s) {name : List Byte}
    (hn : Spec.Packet.Name name) (body : List Byte) : ∃ N, ∀ fuel ≥ N, getContentInfo env' fuel s0 (cipherPacket env s name ++ body) = .ok (.settings s false body) := by
  have h := packet_settings env env' hu hj hh s s0 { hs with chunksize := by show 0 < 2 ^ 32; decide } (Nat.lt_trans hs.chunksize (by decide)) hn body
  rw [Nat.mod_eq_of_lt hs.chunksize] at h
  exact h

/-- **C152** (proved part): if anything in the settings of the packet is changed so that their digest is another one, `decipher` refuses the file. -/
theorem C152_changed_partial (env env' : PacketEnv) (hu : Usual env) (hh : env'.hex = env.hex) (s s0 : Settings) {name : List Byte} (hl : name.length < 2 ^ 31) (head rdf rdf' tail body : List Byte) (fuel : Nat)
    (hp : cipherPacket env s name = head ++ rdf ++ tail) (hr : rdf = packetRdf env s name) (ht : tail = ascText "<?cipherpacket?>" ++ [12, 10]) (hl' : rdf'.length = rdf.length)
    (hx : env.hex rdf' ≠ env.hex rdf) : getContentInfo env' fuel s0 (head ++ rdf' ++ tail ++ body) = .ok .refused := by
  obtain ⟨l0, l1⟩ := rdf_length env s hl
  obtain ⟨x1, _, x3⟩ := hu.hex (packetRdf env s name)
  have hhead : head = ascText "<?cipherpacket digest=\"" ++ env.hex (packetRdf env s name) ++ ascText "\" bytes=\"" ++ decText (packetRdf env s name).length ++ ascText "\"?>\n" := by
    unfold cipherPacket at hp
    rw [packet_head env hu s hl, hr, ht, List.append_assoc _ (ascText "<?cipherpacket?>") _] at hp
    exact (List.append_cancel_right (List.append_cancel_right hp)).symm
  have hpt : packetText env' (packetRdf env s name).length (rdf' ++ (tail ++ body)) = rdf' := by
    unfold packetText
    rw [List.take_left' (by rw [hl', hr]), hl', hr, Nat.sub_self]
    simp
  rw [List.append_assoc, List.append_assoc, hhead, getContentInfo, head_scan x1 x3 (Nat.lt_trans l1 (by decide)) _]
  simp only []
  rw [if_neg (by omega), if_neg (by omega), List.drop_one, List.tail_cons, hpt, if_pos (by rw [hh, ← hr]; exact hx)]

/-- **C152 is false** of chunks of 4 GiB or more: `decipher` reads the length of the chunks modulo 4 GiB, as another length than `encipher` has recorded and used. -/
theorem C152_chunks_violated (env env' : PacketEnv) (hu : Usual env) (hj : env'.junk.length = 4096) (hh : env'.hex = env.hex) (s s0 : Settings) (hs : Recordable { s with chunksize := 0 })
    (hc : 2 ^ 32 ≤ s.chunksize) (hc' : s.chunksize < 2 ^ 53) {name : List Byte} (hn : Spec.Packet.Name name) (body : List Byte) :
    ∃ n, n ≠ s.chunksize ∧ ∃ N, ∀ fuel ≥ N, getContentInfo env' fuel s0 (cipherPacket env s name ++ body) = .ok (.settings { s with chunksize := n } false body) :=
  ⟨s.chunksize % 2 ^ 32, by omega, packet_settings env env' hu hj hh s s0 hs (by omega) hn body⟩

/-! ### Names with marks -/

/-- The fields behind an element that the name of the file has smuggled in. -/
def smuggled : List (List Byte × List Byte) → Items
  | [] => .done
  | f :: fs => .empty (bytes "b") [] [] (.text (bytes "\">\n    ") (.elem (bytes "cipher:" ++ f.1) [] [] (.text f.2 .done) [] (fieldItems fs)))

theorem smuggled_render (fs : List (List Byte × List Byte)) (hf : fs ≠ []) (name : List Byte) : (packetDoc fs (name ++ bytes "\"><b/>")).render = (packetDocOf (smuggled fs) name).render := by
  obtain ⟨f, fs, rfl⟩ := List.exists_cons_of_ne_nil hf
  unfold packetDoc packetDocOf
  have e : ∀ (B : Items) (m : List Byte), (Document.mk none .done (.elem (bytes "rdf:RDF") rdfAtts [] (.text (bytes "\n  ") (.elem (bytes "cipher:Content") [aboutAtt m] [] B [] (.text (bytes "\n") .done))) [] .done)
      (.text (bytes "\n") .done)).render = [] ++ [] ++ (bytes "<" ++ bytes "rdf:RDF" ++ renderAtts rdfAtts ++ [] ++ bytes ">" ++ (bytes "\n  " ++ (bytes "<" ++ bytes "cipher:Content" ++
    ((bytes " " ++ bytes "rdf:about" ++ [] ++ [61] ++ [] ++ [34] ++ m ++ [34]) ++ []) ++ [] ++ bytes ">" ++ B.render ++ bytes "</" ++ bytes "cipher:Content" ++ [] ++
    bytes ">" ++ (bytes "\n" ++ []))) ++ bytes "</" ++ bytes "rdf:RDF" ++ [] ++ bytes ">" ++ []) ++ (bytes "\n" ++ []) := fun _ _ => rfl
  rw [e, e]
  have k : bytes "\"><b/>" ++ ([34] ++ (bytes ">" ++ bytes "\n    ")) = [34] ++ (bytes ">" ++ (bytes "<" ++ (bytes "b" ++ (bytes "/>" ++ bytes "\">\n    ")))) := by decide +kernel
  have e1 : (fieldItems (f :: fs)).render = bytes "\n    " ++ (Items.elem (bytes "cipher:" ++ f.1) [] [] (.text f.2 .done) [] (fieldItems fs)).render := rfl
  have e2 : (smuggled (f :: fs)).render = bytes "<" ++ bytes "b" ++ [] ++ [] ++ bytes "/>" ++ (bytes "\">\n    " ++ (Items.elem (bytes "cipher:" ++ f.1) [] [] (.text f.2 .done) [] (fieldItems fs)).render) := rfl
  rw [e1, e2]
  generalize (Items.elem (bytes "cipher:" ++ f.1) [] [] (.text f.2 .done) [] (fieldItems fs)).render = X
  have := congrArg (· ++ (X ++ (bytes "</" ++ (bytes "cipher:Content" ++ (bytes ">" ++ (bytes "\n" ++ (bytes "</" ++ (bytes "rdf:RDF" ++ (bytes ">" ++ bytes "\n"))))))))) k
  simp only [List.append_assoc, List.append_nil, List.nil_append] at this ⊢
  rw [this]

/-- **C152 is false** of names of files that close their quotes: a file whose path ends in `"><b/>` is enciphered, but `decipher` never ends with what `encipher` has written. -/
theorem C152_name_violated (env env' : PacketEnv) (hu : Usual env) (hh : env'.hex = env.hex) (s s0 : Settings) (hs : Recordable s) {name : List Byte}
    (hn : ∀ c ∈ name, 32 ≤ c.toNat ∧ c ≠ 60 ∧ c ≠ 38 ∧ c ≠ 34) (hl : (name ++ bytes "\"><b/>").length < 2 ^ 31) (body : List Byte) :
    ∃ N, ∀ fuel ≥ N, getContentInfo env' fuel s0 (cipherPacket env s (name ++ bytes "\"><b/>") ++ body) = .ok .forever := by
  have hf := packet_fields_ok env hu s { hs with chunksize := by show 0 < 2 ^ 32; decide } (Nat.lt_trans hs.chunksize (by decide))
  have hne : packetFields env s ≠ [] := by unfold packetFields; simp
  obtain ⟨f, fs, e⟩ := List.exists_cons_of_ne_nil hne
  have hfs : ∀ g ∈ fs, FieldOK g := fun g hg => hf g (by rw [e]; exact List.mem_cons_of_mem _ hg)
  obtain ⟨g1, _, g2, _, g3⟩ := hf f (by rw [e]; exact List.mem_cons_self)
  obtain ⟨w1, w2⟩ := fields_wf fs hfs
  obtain ⟨t1, t2, t4, t3, t5⟩ := text_facts g3
  obtain ⟨c, ks, m1, _⟩ := fields_mean fs hfs (bytes "\">\n    ")
  have hnil : Blank [] := fun c hc => absurd hc List.not_mem_nil
  have hnone : ∀ a ∈ ([] : List Att), a.WF := fun a ha => absurd ha List.not_mem_nil
  have hsk : ¬ skipped (bytes "cipher:" ++ f.1) := by
    rintro (e | e)
    · have := congrArg List.head? e
      rw [cipher_head] at this
      exact absurd this (by decide +kernel)
    · have := congrArg List.head? e
      rw [cipher_head] at this
      exact absurd this (by decide +kernel)
  have has : attsSimple [] := ⟨fun a ha => absurd ha List.not_mem_nil, fun a ha => by cases ha⟩
  have hw : (smuggled (f :: fs)).WF := ⟨name_const _ (by decide +kernel) (by decide +kernel), hnone, hnil, by decide +kernel, by unfold Chars; decide +kernel, by decide +kernel, rfl, g1, hnone, hnil,
    ⟨g2, t1, t2, rfl, trivial⟩, hnil, w1⟩
  have hsim : Simple (smuggled (f :: fs)) := ⟨by unfold skipped; decide +kernel, has, endsWell_of _ (by decide +kernel), hsk, has, ⟨endsWell_of _ t3, trivial⟩, w2⟩
  have hden : ∃ ks, Denotes noDtd (smuggled (f :: fs)) [] c ((0, Tree.node (bytes "b") [] [] []) :: ks) := by
    refine ⟨_, .empty .none (.text (v := bytes "\">\n    ") ?_ (.elem .none (.text (v := f.2) ?_ .done) (by rw [List.nil_append]; exact m1)))⟩
    · rw [lines_id _ (by decide +kernel)]
      exact means_plain [] _ (by decide +kernel) (by decide +kernel)
    · rw [lines_id _ t3]
      exact means_plain [] _ t5 t4
  obtain ⟨ks', hden⟩ := hden
  obtain ⟨r, n, k, ⟨N, h1⟩, h2, h3, h4⟩ := doc_read env'.xml (smuggled (f :: fs)) hw hsim c _ hden name hn
  refine ⟨N, fun fuel hN => ?_⟩
  have h1 := h1 fuel hN
  rw [← smuggled_render (f :: fs) (by simp), ← e, ← packet_render env s _ hf] at h1
  have h0 : (0 : Byte) ∉ name ++ bytes "\"><b/>" := by
    intro h0
    rcases List.mem_append.1 h0 with h0 | h0
    · exact absurd (hn 0 h0).1 (by decide)
    · exact absurd h0 (by decide +kernel)
  rw [packet_begin env env' hu hh s s0 hl body fuel (rdf_no_nul env s _ hf h0) h1 h2 h3]
  cases k with
  | nil => cases h4
  | cons t a c o k r =>
    simp only [kidsOf, List.cons.injEq, Prod.mk.injEq, Tree.node.injEq] at h4
    rw [kidFirsts, if_neg List.not_mem_nil, packetNodes, if_pos (by rw [h4.1.2.1]; decide +kernel)]
    rfl

/-! ### Any file -/

/-- **C153** (violated): deciphering a file that begins with white space, a zero or anything else that is no graphic ASCII character never ends. -/
theorem C153_forever_violated (env : PacketEnv) (fuel : Nat) (s : Settings) (c : Byte) (r : List Byte) (h : ¬ Spec.DigestFile.Graphic c) : getContentInfo env fuel s (c :: r) = .ok .forever := by
  have h1 : isGraphC c = false := by
    cases hg : isGraphC c with
    | false => rfl
    | true =>
      have : ∀ c : Byte, isGraphC c = true → 33 ≤ c.toNat ∧ c.toNat ≤ 126 := by decide +kernel
      exact absurd (this c hg) h
  have h2 : c ≠ asc '>' := by rintro rfl; exact absurd h1 (by decide)
  have : packetScan ⟨0, none⟩ (c :: r) = .forever := by
    rw [packetScan.eq_def]
    simp only []
    rw [if_neg h2, if_pos h1]
  rw [getContentInfo, this]

theorem pair_key (p : List Byte) : (packetPair p).1 = p.takeWhile (fun x => !isSpace x && x != asc '=') := by
  unfold packetPair
  simp only []
  split
  · rfl
  · split <;> rfl

/-- **C153** (violated): deciphering a file that begins with 4096 letters and digits or more writes behind the end of its memory for a key. -/
theorem C153_overrun_violated (env : PacketEnv) (fuel : Nat) (s : Settings) (k r : List Byte) (hk : ∀ c ∈ k, isAlnumC c = true) (hl : 4096 ≤ k.length) : getContentInfo env fuel s (k ++ r) = .ok .overrun := by
  obtain ⟨c, k', rfl⟩ := List.exists_cons_of_ne_nil (l := k) (by rintro rfl; simp at hl)
  obtain ⟨a1, a2, a3, a4, _⟩ := alnum_facts c (hk c List.mem_cons_self)
  have h1 : ∀ x ∈ c :: k', (!isSpace x && x != asc '=') = true := fun x hx => by
    obtain ⟨_, h, _, h', _⟩ := alnum_facts x (hk x hx)
    rw [h]; simpa using h'
  have hp : 4096 ≤ (packetPair (c :: (k' ++ r))).1.length := by
    rw [pair_key, ← List.cons_append, List.takeWhile_append_of_pos h1, List.length_append]
    omega
  have : packetScan ⟨0, none⟩ (c :: (k' ++ r)) = .overrun := by
    rw [packetScan.eq_def]
    simp only []
    rw [if_neg a3, if_neg (by rw [a1]; decide), if_neg (by rw [hk c List.mem_cons_self]; decide), dif_pos (by rw [a2]; simpa using a4), if_pos (show wizardPathExtent ≤ _ from hp)]
  rw [List.cons_append, getContentInfo, this]

theorem value_suffix (q : List Byte) : (packetValue q).2 <:+ q ∧ (packetValue q).1 <:+: q := by
  cases q with
  | nil => exact ⟨List.suffix_rfl, List.infix_rfl⟩
  | cons c r =>
    unfold packetValue
    simp only []
    split
    · exact ⟨List.suffix_rfl, List.nil_infix⟩
    · exact ⟨(List.dropWhile_suffix _).trans (List.suffix_cons c r), ((List.prefix_cons_inj c).2 (List.takeWhile_prefix _)).isInfix⟩

theorem pair_suffix (p : List Byte) : (packetPair p).2.2 <:+ p ∧ (packetPair p).2.1 <:+: p := by
  have h : digestSkip (p.dropWhile (fun x => !isSpace x && x != asc '=')) <:+ p := (List.dropWhile_suffix _).trans (List.dropWhile_suffix _)
  unfold packetPair
  simp only []
  cases e : digestSkip (p.dropWhile (fun x => !isSpace x && x != asc '=')) with
  | nil => exact ⟨List.nil_suffix, List.nil_infix⟩
  | cons c q =>
    rw [e] at h
    simp only []
    split
    · exact ⟨(value_suffix q).1.trans ((List.suffix_cons c q).trans h), (value_suffix q).2.trans ((List.suffix_cons c q).trans h).isInfix⟩
    · exact ⟨h, List.nil_infix⟩

/-- **C153** (partial): deciphering ends, and stays inside its memory, if the file has graphic ASCII characters and white space only, does not begin with white space and has fewer than 4096
characters between white space; unless there is a part of the file that is, without quotes, the digest of the settings in it. -/
theorem C153_ends_partial (env : PacketEnv) (fuel : Nat) (s : Settings) (file : List Byte) (ht : ∀ c ∈ file, Spec.DigestFile.Graphic c ∨ isSpace c = true)
    (hf : ∀ c, file.head? = some c → isSpace c = false) (hr : ∀ k, k <:+: file → (∀ c ∈ k, isSpace c = false) → k.length < 4096) :
    getContentInfo env fuel s file ≠ .ok .overrun ∧ (getContentInfo env fuel s file = .ok .forever → ∃ w t, w <:+: file ∧ env.hex t = stripText w) := by
  have key : ∀ (n : Nat) (p : List Byte), p.length ≤ n → p <:+ file → (∀ c, p.head? = some c → isSpace c = false) → ∀ h : PacketHead, (∀ d, h.digest = some d → ∃ w, w <:+: file ∧ d = stripText w) →
      ∃ h' rest, packetScan h p = .head h' rest ∧ ∀ d, h'.digest = some d → ∃ w, w <:+: file ∧ d = stripText w := by
    have skipped : ∀ r : List Byte, ∀ c, (digestSkip r).head? = some c → isSpace c = false := by
      intro r c hc
      have := List.head?_dropWhile_not isSpace r
      rw [show (r.dropWhile isSpace).head? = some c from hc] at this
      simpa using this
    intro n
    induction n with
    | zero =>
      intro p hp _ _ h hd
      rw [List.eq_nil_of_length_eq_zero (Nat.le_zero.1 hp), packetScan]
      exact ⟨h, [], rfl, hd⟩
    | succ n ih =>
      intro p hp hs hh h hd
      cases p with
      | nil => rw [packetScan]; exact ⟨h, [], rfl, hd⟩
      | cons c r =>
        have hg : Spec.DigestFile.Graphic c := (ht c (hs.mem (List.mem_cons_self ..))).resolve_right (by rw [hh c rfl]; decide)
        rw [packetScan.eq_def]
        simp only []
        by_cases hc : c = asc '>'
        · rw [if_pos hc]; exact ⟨h, r, rfl, hd⟩
        · rw [if_neg hc, if_neg (by rw [(graphic_space hg).2.2]; decide)]
          by_cases ha : isAlnumC c = false
          · rw [if_pos ha]
            exact ih _ (Nat.le_trans (dropWhile_le _ _) (Nat.le_of_succ_le_succ hp)) ((List.dropWhile_suffix _).trans ((List.suffix_cons c r).trans hs)) (skipped r) h hd
          · have ha' : isAlnumC c = true := by simpa using ha
            obtain ⟨_, a2, _, a4, _⟩ := alnum_facts c ha'
            have hb : (!isSpace c && c != asc '=') = true := by rw [a2]; simpa using a4
            have hshort : (packetPair (c :: r)).1.length < 4096 := by
              rw [pair_key]
              refine hr _ ((List.takeWhile_prefix _).isInfix.trans hs.isInfix) fun x hx => ?_
              have := List.all_eq_true.1 List.all_takeWhile x hx
              cases hsx : isSpace x with
              | false => rfl
              | true => rw [hsx] at this; cases this
            rw [if_neg ha, dif_pos hb, if_neg (by rw [show wizardPathExtent = 4096 from rfl]; omega)]
            refine ih _ (Nat.le_of_lt_succ (Nat.lt_of_lt_of_le (packetPair_lt hb) hp)) ((List.dropWhile_suffix _).trans ((pair_suffix _).1.trans hs)) (skipped _) _ fun d hd' => ?_
            unfold packetInterpret at hd'
            split at hd'
            · exact hd d hd'
            · split at hd'
              · refine ⟨cText (packetPair (c :: r)).2.1, (List.takeWhile_prefix _).isInfix.trans ((pair_suffix _).2.trans hs.isInfix), (Option.some.inj hd').symm⟩
              · exact hd d hd'
  obtain ⟨h, rest, e, hd⟩ := key _ file (Nat.le_refl _) List.suffix_rfl hf ⟨0, none⟩ (fun d h => by cases h)
  rw [getContentInfo, e]
  simp only []
  cases hdig : h.digest with
  | none => exact ⟨by simp, by simp⟩
  | some d =>
    obtain ⟨w, hw, rfl⟩ := hd d hdig
    simp only []
    split
    · exact ⟨by simp, by simp⟩
    split
    · exact ⟨by simp, by simp⟩
    split
    · exact ⟨by simp, by simp⟩
    · rename_i hx
      refine ⟨?_, fun _ => ⟨w, _, hw, by simpa using hx⟩⟩
      cases newXMLTree env.xml fuel (cText (packetText env h.bytes (rest.drop 1))) with
      | ub => intro h; cases h
      | fatal => intro h; cases h
      | ok o =>
        rw [Res.ok_bind]
        cases o with
        | none => simp
        | some o =>
          obtain ⟨r, x⟩ := o
          simp only []
          split
          · simp
          · rename_i kids _
            cases packetNodes env (kidFirsts [] kids) s false with
            | ub => intro h; cases h
            | fatal => intro h; cases h
            | ok o =>
              rw [Res.ok_bind]
              cases o with
              | none => simp
              | some o => obtain ⟨s, x⟩ := o; simp

/-! ### Examples -/

/-- A digest, dates and memory. -/
def packetEnvExample : PacketEnv :=
  ⟨fun t => if t.length % 2 = 0 then ascText "12ab" else ascText "34cd", fun _ => 0, List.replicate 4096 0, ⟨fun _ => 0, fun r _ => .ok (some r)⟩, ascText "2026-01-01T00:00:00Z", ascText "2025-01-01T00:00:00Z",
    ascText "2026-01-02T00:00:00Z"⟩

/-- Settings as `encipher` has them without options. -/
def settingsExample : Settings :=
  { cipher := 2, mode := 3, nonce := ascText "00ff", authenticate := 1, id := ascText "9f3a", keyHash := 7, keyLength := 512, entropy := 3, level := 6, hmac := 7, chunksize := 262144, version := ascText "WizardsToolkit 1.1" }

theorem packet_example : Usual packetEnvExample ∧ Recordable settingsExample ∧ Spec.Packet.Name (ascText "/home/a user/R+D 100%.txt") := by
  have ht : ∀ t ∈ [ascText "2026-01-01T00:00:00Z", ascText "2025-01-01T00:00:00Z", ascText "2026-01-02T00:00:00Z", ascText "00ff", ascText "9f3a", ascText "WizardsToolkit 1.1"], Text t := by unfold Text; decide +kernel
  have hh : ∀ t ∈ [ascText "12ab", ascText "34cd"], t ≠ [] ∧ t.length ≤ 128 ∧ ∀ c ∈ t, 33 ≤ c.toNat ∧ c.toNat ≤ 126 ∧ c ≠ 34 ∧ c ≠ 39 ∧ c ≠ 63 := by decide +kernel
  refine ⟨⟨List.length_replicate, fun t => ?_, ht (ascText "2026-01-01T00:00:00Z") (by decide +kernel), ht (ascText "2025-01-01T00:00:00Z") (by decide +kernel), ht (ascText "2026-01-02T00:00:00Z") (by decide +kernel)⟩,
    ⟨by unfold OneOf; decide +kernel, by unfold OneOf; decide +kernel, by unfold OneOf; decide +kernel, by unfold OneOf; decide +kernel, by unfold OneOf; decide +kernel, by unfold OneOf; decide +kernel,
      by decide, by decide, ht (ascText "00ff") (by decide +kernel), ht (ascText "9f3a") (by decide +kernel), ht (ascText "WizardsToolkit 1.1") (by decide +kernel)⟩, by unfold Spec.Packet.Name; decide +kernel⟩
  show (if t.length % 2 = 0 then ascText "12ab" else ascText "34cd") ≠ [] ∧ _
  have e : packetEnvExample.hex t = ascText "12ab" ∨ packetEnvExample.hex t = ascText "34cd" := by
    show (if t.length % 2 = 0 then ascText "12ab" else ascText "34cd") = _ ∨ (if t.length % 2 = 0 then ascText "12ab" else ascText "34cd") = _
    split
    · exact .inl rfl
    · exact .inr rfl
  exact hh (packetEnvExample.hex t) (by rcases e with e | e <;> rw [e] <;> decide +kernel)

end Wizard.Props
