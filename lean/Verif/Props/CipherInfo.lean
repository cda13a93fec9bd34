import Verif.Spec.CipherInfo
import Verif.Props.Packet
/-! C176: `cipher-info` shows what is recorded in files. -/
namespace Wizard.Props
open Wizard Wizard.Spec.Xml Wizard.XmlP
open Wizard.Spec.Packet (Text OneOf Recordable Usual)
open Wizard.Spec.CipherInfo

/-- The program with bounds of its loops. -/
def bounded (p : InfoProgram) (fuel : Nat) : InfoProgram := { p with fuel := fuel }

theorem text_bounded (p : InfoProgram) (fuel : Nat) : infoText (bounded p fuel) = infoText p := rfl

theorem loop_missing (p : InfoProgram) (files : Files) (a : List Byte) (rest : List (List Byte)) (s : Settings) (status : Bool) (out : List Byte) (h1 : a.head? ≠ some 45) (h2 : files a = none) :
    infoLoop p files (a :: rest) s status out = infoLoop p files rest s status out := by
  rw [infoLoop.eq_def]
  simp only []
  rw [if_neg (by exact h1), h2]

theorem loop_shown (p : InfoProgram) (files : Files) (a : List Byte) (rest : List (List Byte)) (s s' : Settings) (status x : Bool) (out file body : List Byte) (h1 : a.head? ≠ some 45) (h2 : files a = some file)
    (h3 : getContentInfo p.packet p.fuel s file = .ok (.settings s' x body)) :
    infoLoop p files (a :: rest) s status out = infoLoop p files rest s' true (out ++ infoText p a s') := by
  rw [infoLoop.eq_def]
  simp only []
  rw [if_neg (by exact h1), h2]
  simp only [h3]

theorem loop_refused (p : InfoProgram) (files : Files) (a : List Byte) (rest : List (List Byte)) (s : Settings) (status : Bool) (out file : List Byte) (h1 : a.head? ≠ some 45) (h2 : files a = some file)
    (h3 : getContentInfo p.packet p.fuel s file = .ok .refused) :
    infoLoop p files (a :: rest) s status out = infoLoop p files rest s false out := by
  rw [infoLoop.eq_def]
  simp only []
  rw [if_neg (by exact h1), h2]
  simp only [h3]

theorem shows (p : InfoProgram) (hj : p.packet.junk.length = 4096) (files : Files) : ∀ (args : List (List Byte × Option Enciphered)), Holds files args → (∀ a ∈ args, ∀ e, a.2 = some e → e.OK p.packet.hex) →
    ∀ s out, ∃ N, ∀ fuel ≥ N, infoLoop (bounded p fuel) files (args.map (·.1)) s true out = .ok (.returned true, out ++ report (infoText p) args) := by
  intro args
  induction args with
  | nil => intro _ _ s out; exact ⟨0, fun fuel _ => by simp [infoLoop, report]⟩
  | cons a args ih =>
    intro h ho s out
    obtain ⟨h1, h2⟩ := h a List.mem_cons_self
    have h' : Holds files args := fun b hb => h b (List.mem_cons_of_mem _ hb)
    have ho' : ∀ b ∈ args, ∀ e, b.2 = some e → e.OK p.packet.hex := fun b hb => ho b (List.mem_cons_of_mem _ hb)
    obtain ⟨name, f⟩ := a
    cases f with
    | none =>
      obtain ⟨N, hN⟩ := ih h' ho' s out
      refine ⟨N, fun fuel hf => ?_⟩
      rw [List.map_cons, loop_missing _ files _ _ _ _ _ h1 h2, hN fuel hf]
      simp [report]
    | some e =>
      obtain ⟨k1, k2, k3, k4⟩ := ho _ List.mem_cons_self e rfl
      obtain ⟨M, hM⟩ := C152_settings_partial e.env p.packet k1 hj k2.symm e.settings s k3 k4 e.body
      obtain ⟨N, hN⟩ := ih h' ho' e.settings (out ++ infoText p name e.settings)
      refine ⟨max M N, fun fuel hf => ?_⟩
      rw [List.map_cons, loop_shown (bounded p fuel) files _ _ _ _ _ _ _ _ _ h1 h2 (hM fuel (by omega))]
      show infoLoop (bounded p fuel) files _ _ true (out ++ infoText p name e.settings) = _
      rw [hN fuel (by omega)]
      simp [report, List.append_assoc]

/-- **C176** (partial): given names of files that `encipher` has written, and of files that are not there, `cipher-info` shows of each file its own settings, in the order of the arguments,
and succeeds. What is missing: other files (see the violations), names that start with `-` or are patterns, and settings as for C152. -/
theorem C176_shows_partial (p : InfoProgram) (hj : p.packet.junk.length = 4096) (files : Files) (args : List (List Byte × Option Enciphered)) (hne : args ≠ []) (hf : Holds files args)
    (ho : ∀ a ∈ args, ∀ e, a.2 = some e → e.OK p.packet.hex) :
    ∃ N, ∀ fuel ≥ N, cipherInfoCommand (bounded p fuel) files (args.map (·.1)) = .ok (.returned true, report (infoText p) args) := by
  obtain ⟨N, h⟩ := shows p hj files args hf ho (infoStart p) []
  refine ⟨N, fun fuel hN => ?_⟩
  rw [cipherInfoCommand, if_neg (by simpa using hne)]
  exact h fuel hN

/-! ### The report -/

theorem line_tells {l a b d e : List Byte} (h1 : (10 : Byte) ∉ a) (h2 : (10 : Byte) ∉ b) (h : l ++ (a ++ (ascText "\n" ++ d)) = l ++ (b ++ (ascText "\n" ++ e))) : a = b ∧ d = e := by
  replace h := List.append_cancel_left h
  rw [show ascText "\n" = [10] by decide +kernel] at h
  induction a generalizing b with
  | nil =>
    cases b with
    | nil => exact ⟨rfl, (List.cons.inj h).2⟩
    | cons x b => exact absurd ((List.cons.inj h).1 ▸ List.mem_cons_self) h2
  | cons x a ih =>
    cases b with
    | nil => exact absurd ((List.cons.inj h).1 ▸ List.mem_cons_self) h1
    | cons y b =>
      obtain ⟨k1, k2⟩ := List.cons.inj h
      obtain ⟨k3, k4⟩ := ih (fun hm => h1 (List.mem_cons_of_mem _ hm)) (fun hm => h2 (List.mem_cons_of_mem _ hm)) k2
      exact ⟨by rw [k1, k3], k4⟩

theorem mnemonic_tells : ∀ table ∈ [cipherOptions, modeOptions, authenticateOptions, hashOptions, entropyOptions], ∀ o ∈ table, (10 : Byte) ∉ optionToMnemonic table o.type ∧
    ∀ q ∈ table, optionToMnemonic table o.type = optionToMnemonic table q.type → o.type = q.type := by decide +kernel

theorem one_tells {table : List OptionInfo} (ht : table ∈ [cipherOptions, modeOptions, authenticateOptions, hashOptions, entropyOptions]) {v w : BitVec 64} (hv : OneOf table v) (hw : OneOf table w) :
    (10 : Byte) ∉ optionToMnemonic table v ∧ (optionToMnemonic table v = optionToMnemonic table w → v = w) := by
  obtain ⟨o, ho, rfl⟩ := hv
  obtain ⟨q, hq, rfl⟩ := hw
  exact ⟨(mnemonic_tells table ht o ho).1, (mnemonic_tells table ht o ho).2 q hq⟩

theorem dec_tells (n : Nat) : (10 : Byte) ∉ decText n := fun h => by
  have := (decText_bytes n 10 h).1
  revert this; decide

theorem text_tells {s : List Byte} (h : Text s) : (10 : Byte) ∉ s := fun hm => absurd (h.2.2 10 hm).1 (by decide)

/-- **C176** (proved part): reports tell settings apart: two files with the same report have the same name, and recorded the same cipher, mode, nonce, authentication, id, hashes, key length, entropy
and version, and chunks whose sizes are shown alike. -/
theorem C176_tells_partial (p : InfoProgram) (hp : ∀ n, (10 : Byte) ∉ p.size n) {n n' : List Byte} {s s' : Settings} (hn : (10 : Byte) ∉ n) (hn' : (10 : Byte) ∉ n') (hs : Recordable s) (hs' : Recordable s')
    (h : infoText p n s = infoText p n' s') :
    n = n' ∧ p.size s.chunksize = p.size s'.chunksize ∧ s = { s' with chunksize := s.chunksize } := by
  unfold infoText at h
  simp only [List.append_assoc] at h
  obtain ⟨r1, h'⟩ := line_tells hn hn' h
  replace h := h'
  clear h'
  replace h := List.append_cancel_left h
  obtain ⟨r2, h'⟩ := line_tells (one_tells (by simp) hs.cipher hs.cipher).1 (one_tells (by simp) hs'.cipher hs'.cipher).1 h
  replace h := h'
  clear h'
  obtain ⟨r3, h'⟩ := line_tells (one_tells (by simp) hs.mode hs.mode).1 (one_tells (by simp) hs'.mode hs'.mode).1 h
  replace h := h'
  clear h'
  obtain ⟨r4, h'⟩ := line_tells (text_tells hs.nonce) (text_tells hs'.nonce) h
  replace h := h'
  clear h'
  replace h := List.append_cancel_left h
  obtain ⟨r5, h'⟩ := line_tells (one_tells (by simp) hs.authenticate hs.authenticate).1 (one_tells (by simp) hs'.authenticate hs'.authenticate).1 h
  replace h := h'
  clear h'
  replace h := List.append_cancel_left h
  obtain ⟨r6, h'⟩ := line_tells (one_tells (by simp) hs.keyHash hs.keyHash).1 (one_tells (by simp) hs'.keyHash hs'.keyHash).1 h
  replace h := h'
  clear h'
  obtain ⟨r7, h'⟩ := line_tells (dec_tells _) (dec_tells _) h
  replace h := h'
  clear h'
  obtain ⟨r8, h'⟩ := line_tells (text_tells hs.id) (text_tells hs'.id) h
  replace h := h'
  clear h'
  replace h := List.append_cancel_left h
  obtain ⟨r9, h'⟩ := line_tells (one_tells (by simp) hs.entropy hs.entropy).1 (one_tells (by simp) hs'.entropy hs'.entropy).1 h
  replace h := h'
  clear h'
  obtain ⟨r10, h'⟩ := line_tells (dec_tells _) (dec_tells _) h
  replace h := h'
  clear h'
  replace h := List.append_cancel_left h
  obtain ⟨r11, h'⟩ := line_tells (one_tells (by simp) hs.hmac hs.hmac).1 (one_tells (by simp) hs'.hmac hs'.hmac).1 h
  replace h := h'
  clear h'
  rw [show ascText "B\n" = ascText "B" ++ ascText "\n" by decide +kernel] at h
  have kB : (10 : Byte) ∉ ascText "B" := by decide +kernel
  have h' : ascText "  Chunksize: " ++ ((p.size s.chunksize ++ ascText "B") ++ (ascText "\n" ++ (ascText "  Version: " ++ (s.version ++ ascText "\n")))) =
      ascText "  Chunksize: " ++ ((p.size s'.chunksize ++ ascText "B") ++ (ascText "\n" ++ (ascText "  Version: " ++ (s'.version ++ ascText "\n")))) := by simpa only [List.append_assoc] using h
  have kz : ∀ n, (10 : Byte) ∉ p.size n ++ ascText "B" := fun n hm => (List.mem_append.1 hm).elim (hp n) kB
  obtain ⟨r12, h⟩ := line_tells (kz _) (kz _) h'
  have r13 := List.append_cancel_right (List.append_cancel_left h)
  have q2 := (one_tells (by simp) hs.cipher hs'.cipher).2 r2
  have q3 := (one_tells (by simp) hs.mode hs'.mode).2 r3
  have q5 := (one_tells (by simp) hs.authenticate hs'.authenticate).2 r5
  have q6 := (one_tells (by simp) hs.keyHash hs'.keyHash).2 r6
  have q9 := (one_tells (by simp) hs.entropy hs'.entropy).2 r9
  have q11 := (one_tells (by simp) hs.hmac hs'.hmac).2 r11
  have q7 : s.keyLength = s'.keyLength := BitVec.eq_of_toNat_eq (by rw [← decText_val s.keyLength.toNat, r7, decText_val])
  have q10 : s.level = s'.level := BitVec.eq_of_toNat_eq (by rw [← decText_val s.level.toNat, r10, decText_val])
  refine ⟨r1, List.append_cancel_right r12, ?_⟩
  clear h h'
  obtain ⟨⟩ := s
  obtain ⟨⟩ := s'
  simp only [Settings.mk.injEq]
  exact ⟨q2, q3, r4, q5, r8, q6, q7, q9, q10, q11, trivial, r13⟩

/-! ### Files that do not say everything -/

theorem rdfOf_render (fs : List (List Byte × List Byte)) (name : List Byte) (h : ∀ f ∈ fs, FieldOK f) : rdfOf fs name = (packetDoc fs name).render := by
  have hf := fields_render _ h
  unfold rdfOf
  show _ = [] ++ [] ++ (bytes "<" ++ bytes "rdf:RDF" ++ renderAtts rdfAtts ++ [] ++ bytes ">" ++ (bytes "\n  " ++ (bytes "<" ++ bytes "cipher:Content" ++
    ((bytes " " ++ bytes "rdf:about" ++ [] ++ [61] ++ [] ++ [34] ++ name ++ [34]) ++ []) ++ [] ++ bytes ">" ++ (fieldItems fs).render ++ bytes "</" ++ bytes "cipher:Content" ++ [] ++
    bytes ">" ++ (bytes "\n" ++ []))) ++ bytes "</" ++ bytes "rdf:RDF" ++ [] ++ bytes ">" ++ []) ++ (bytes "\n" ++ [])
  rw [← hf]
  have k1 : ascText "<rdf:RDF xmlns:rdf=\"http://www.w3.org/1999/02/22-rdf-syntax-ns#\"\n" ++
    (ascText "         xmlns:cipher=\"https://urban-warrior.org/WizardsToolkit/cipher/1.0/\">\n" ++ ascText "  <cipher:Content rdf:about=\"") =
    bytes "<" ++ (bytes "rdf:RDF" ++ (renderAtts rdfAtts ++ (bytes ">" ++ (bytes "\n  " ++ (bytes "<" ++ (bytes "cipher:Content" ++ (bytes " " ++ (bytes "rdf:about" ++ ([61] ++ [34]))))))))) := by decide +kernel
  have k2 : ascText "\">\n" = [34] ++ (bytes ">" ++ ascText "\n") := by decide +kernel
  have k3 : ascText "  </cipher:Content>\n" ++ ascText "</rdf:RDF>\n" = ascText "  " ++ (bytes "</" ++ (bytes "cipher:Content" ++ (bytes ">" ++ (bytes "\n" ++ (bytes "</" ++ (bytes "rdf:RDF" ++ (bytes ">" ++ bytes "\n"))))))) := by
    decide +kernel
  have := congrArg (· ++ (name ++ (ascText "\">\n" ++ (fs.flatMap packetLine ++ (ascText "  </cipher:Content>\n" ++ ascText "</rdf:RDF>\n"))))) k1
  simp only [List.append_assoc, List.append_nil, List.nil_append] at this ⊢
  rw [this, k2, k3]
  simp only [List.append_assoc]

theorem rdfOf_length (fs : List (List Byte × List Byte)) {name : List Byte} (h : name.length < 2 ^ 31) (hf : fs.length ≤ 16) : 0 < (rdfOf fs name).length ∧ (rdfOf fs name).length < 2 ^ 32 := by
  have hl := lines_length fs
  have k1 : (ascText "<rdf:RDF xmlns:rdf=\"http://www.w3.org/1999/02/22-rdf-syntax-ns#\"\n").length = 65 := by decide +kernel
  have k2 : (ascText "         xmlns:cipher=\"https://urban-warrior.org/WizardsToolkit/cipher/1.0/\">\n").length = 78 := by decide +kernel
  have k3 : (ascText "  <cipher:Content rdf:about=\"").length = 29 := by decide +kernel
  have k4 : (ascText "\">\n").length = 3 := by decide +kernel
  have k5 : (ascText "  </cipher:Content>\n").length = 20 := by decide +kernel
  have k6 : (ascText "</rdf:RDF>\n").length = 11 := by decide +kernel
  unfold rdfOf
  simp only [List.length_append, k1, k2, k3, k4, k5, k6]
  omega

theorem rdfOf_no_nul (fs : List (List Byte × List Byte)) (name : List Byte) (h : ∀ f ∈ fs, FieldOK f) (hn : (0 : Byte) ∉ name) : (0 : Byte) ∉ rdfOf fs name := by
  have k : ∀ t ∈ [ascText "<rdf:RDF xmlns:rdf=\"http://www.w3.org/1999/02/22-rdf-syntax-ns#\"\n", ascText "         xmlns:cipher=\"https://urban-warrior.org/WizardsToolkit/cipher/1.0/\">\n",
      ascText "  <cipher:Content rdf:about=\"", ascText "\">\n", ascText "  </cipher:Content>\n", ascText "</rdf:RDF>\n", ascText "    <cipher:", ascText ">", ascText "</cipher:", ascText ">\n",
      bytes "cipher:"], (0 : Byte) ∉ t := by decide +kernel
  have hl : (0 : Byte) ∉ fs.flatMap packetLine := by
    intro h0
    obtain ⟨f, hf, hm⟩ := List.mem_flatMap.1 h0
    obtain ⟨⟨_, h1⟩, _, _, _, h3⟩ := h f hf
    have ht : (0 : Byte) ∉ f.1 := fun h0 => by
      exact absurd (h1 0 (List.mem_append_right _ h0)) (by unfold NameByte NameStart Letter; decide)
    have hv : (0 : Byte) ∉ f.2 := fun h0 => absurd (h3 0 h0).1 (by decide)
    rw [line_whole (h f hf)] at hm
    simp only [List.mem_append] at hm
    rcases hm with (((((hm | hm) | hm) | hm) | hm) | hm) | hm
    · exact k _ (by simp) hm
    · exact ht hm
    · exact k _ (by simp) hm
    · exact hv hm
    · exact k _ (by simp) hm
    · exact ht hm
    · exact k _ (by simp) hm
  unfold rdfOf
  simp only [List.mem_append, not_or]
  exact ⟨⟨⟨⟨⟨k _ (by simp), k _ (by simp)⟩, ⟨k _ (by simp), hn⟩, k _ (by simp)⟩, hl⟩, k _ (by simp)⟩, k _ (by simp)⟩

/-- What `GetContentInfo` does with a file that has these settings. -/
theorem packet_file_read (env : PacketEnv) (hu : Usual env) (fs : List (List Byte × List Byte)) (h : ∀ f ∈ fs, FieldOK f) (hd : (fs.map fun f => bytes "cipher:" ++ f.1).Nodup) (hl : fs.length ≤ 16)
    {name : List Byte} (hn : Spec.Packet.Name name) (body : List Byte) (s0 s' : Settings) (hs : packetNodes env (fs.map fun f => (bytes "cipher:" ++ f.1, f.2)) s0 false = .ok (some (s', false))) :
    ∃ N, ∀ fuel ≥ N, getContentInfo env fuel s0 (fileOf env.hex fs name body) = .ok (.settings s' false body) := by
  obtain ⟨r, n, k, ⟨N, h1⟩, hr, hk, h4⟩ := packet_read env.xml fs h name hn.2
  refine ⟨N, fun fuel hN => ?_⟩
  have ht := h1 fuel hN
  rw [← rdfOf_render fs name h] at ht
  have h0 := rdfOf_no_nul fs name h fun h0 => absurd (hn.2 0 h0).1 (by decide)
  obtain ⟨l0, l1⟩ := rdfOf_length fs hn.1 hl
  obtain ⟨x1, x2, x3⟩ := hu.hex (rdfOf fs name)
  unfold fileOf
  have hp : packetText env (rdfOf fs name).length (rdfOf fs name ++ (ascText "<?cipherpacket?>" ++ ([12, 10] ++ body))) = rdfOf fs name := by
    unfold packetText
    rw [List.take_left' rfl, Nat.sub_self]
    simp
  have hb : packetTrailer (some 10) (ascText "<?cipherpacket?>" ++ ([12, 10] ++ body)) = body := by
    unfold packetTrailer
    simp only []
    rw [if_neg (by decide), show ascText "<?cipherpacket?>" = ascText "<?cipherpacket?" ++ [asc '>'] by decide +kernel, List.append_assoc,
      List.dropWhile_append_of_pos (p := fun x => x != asc '>') (l₁ := ascText "<?cipherpacket?") (by decide +kernel)]
    simp
  rw [getContentInfo, head_scan x1 x3 (Nat.lt_trans l1 (by decide)) _]
  simp only []
  rw [if_neg (by omega), if_neg (by omega), List.drop_one, List.tail_cons, hp, if_neg (by simp), cText_whole h0, ht, Res.ok_bind]
  simp only []
  rw [hr]
  simp only [Option.bind_some]
  rw [hk]
  simp only [Option.orElse_some]
  rw [firsts_of fs k [] h4 hd (fun f _ => List.not_mem_nil), hs, Res.ok_bind]
  simp only []
  rw [List.drop_left' rfl, List.head?_cons, hb]

theorem sparse_ok {nonce id : List Byte} (h1 : Text nonce) (h2 : Text id) : ∀ f ∈ sparse nonce id, FieldOK f := by
  have key : ∀ t ∈ [ascText "type", ascText "nonce", ascText "id"], Spec.Xml.Name (bytes "cipher:" ++ t) ∧ t.length ≤ 20 := by
    have h : ∀ t ∈ [ascText "type", ascText "nonce", ascText "id"], ((bytes "cipher:" ++ t).head?.any fun c => decide ((65 ≤ c.toNat ∧ c.toNat ≤ 90) ∨ (97 ≤ c.toNat ∧ c.toNat ≤ 122))) = true ∧
      (∀ c ∈ bytes "cipher:" ++ t, ((65 ≤ c.toNat ∧ c.toNat ≤ 90) ∨ (97 ≤ c.toNat ∧ c.toNat ≤ 122)) ∨ c = 58 ∨ c = 45) ∧ t.length ≤ 20 := by decide +kernel
    exact fun t ht => ⟨name_const _ (h t ht).1 (h t ht).2.1, (h t ht).2.2⟩
  intro f hf
  simp only [sparse, List.mem_cons, List.not_mem_nil, or_false] at hf
  rcases hf with rfl | rfl | rfl
  · exact ⟨(key _ (by simp)).1, (key _ (by simp)).2, option_text (table := cipherOptions) (v := 2) (by simp) (by unfold OneOf; decide +kernel)⟩
  · exact ⟨(key _ (by simp)).1, (key _ (by simp)).2, h1⟩
  · exact ⟨(key _ (by simp)).1, (key _ (by simp)).2, h2⟩

theorem sparse_read (env : PacketEnv) (hu : Usual env) {nonce id : List Byte} (h1 : Text nonce) (h2 : Text id) {name : List Byte} (hn : Spec.Packet.Name name) (body : List Byte) (s0 : Settings) :
    ∃ N, ∀ fuel ≥ N, getContentInfo env fuel s0 (fileOf env.hex (sparse nonce id) name body) = .ok (.settings { s0 with cipher := 2, nonce := nonce, id := id } false body) := by
  refine packet_file_read env hu (sparse nonce id) (sparse_ok h1 h2) ?_ (by show 3 ≤ 16; decide) hn body s0 _ ?_
  · show ([ascText "type", ascText "nonce", ascText "id"].map (bytes "cipher:" ++ ·)).Nodup
    decide +kernel
  · unfold sparse
    simp only [List.map_cons, List.map_nil]
    rw [node_step env .type _ _ _ _ _ (by decide +kernel) (set_type env hu.junk _ (by unfold OneOf; decide +kernel))]
    rw [node_step env .nonce _ _ _ _ _ (by decide +kernel) rfl]
    rw [node_step env .id _ _ _ _ _ (by decide +kernel) rfl]
    rw [packetNodes]

/-- **C176 is false** of several files: what a file does not say is shown as the file before it says it. The same file is shown in one way if it is alone, and in another way behind a file
that `encipher` has written: with the other file's mode, keys, hashes, entropy, chunks and version. -/
theorem C176_carried_violated (p : InfoProgram) (hu : Usual p.packet) (files : Files) (a b : List Byte) (ha : a.head? ≠ some 45) (hb : b.head? ≠ some 45) (e : Enciphered) (he : e.OK p.packet.hex)
    {nonce id name : List Byte} (h1 : Text nonce) (h2 : Text id) (hn : Spec.Packet.Name name) (body : List Byte) (fa : files a = some e.text) (fb : files b = some (fileOf p.packet.hex (sparse nonce id) name body)) :
    ∃ N, ∀ fuel ≥ N,
      cipherInfoCommand (bounded p fuel) files [b] = .ok (.returned true, infoText p b { infoStart p with cipher := 2, nonce := nonce, id := id }) ∧
      cipherInfoCommand (bounded p fuel) files [a, b] = .ok (.returned true, infoText p a e.settings ++ infoText p b { e.settings with cipher := 2, nonce := nonce, id := id }) := by
  obtain ⟨M, hM⟩ := sparse_read p.packet hu h1 h2 hn body (infoStart p)
  obtain ⟨K, hK⟩ := sparse_read p.packet hu h1 h2 hn body e.settings
  obtain ⟨N, hN⟩ := C152_settings_partial e.env p.packet he.usual hu.junk he.hex.symm e.settings (infoStart p) he.recordable he.name e.body
  refine ⟨max M (max K N), fun fuel hf => ⟨?_, ?_⟩⟩
  · rw [cipherInfoCommand, if_neg (by simp), show infoStart (bounded p fuel) = infoStart p from rfl, loop_shown (bounded p fuel) files b [] (infoStart p) _ true _ [] _ _ hb fb (hM fuel (by omega)), infoLoop, List.nil_append]
    simp only [text_bounded]
  · rw [cipherInfoCommand, if_neg (by simp), show infoStart (bounded p fuel) = infoStart p from rfl, loop_shown (bounded p fuel) files a [b] (infoStart p) _ true _ [] _ _ ha fa (hN fuel (by omega)),
      loop_shown (bounded p fuel) files b [] _ _ _ _ _ _ _ hb fb (hK fuel (by omega)), infoLoop, List.nil_append]
    simp only [text_bounded]

/-- The two ways are different, for instance behind a file that another version has written. -/
example (p : InfoProgram) (b nonce id v : List Byte) (h : v ≠ p.version) :
    infoText p b { infoStart p with cipher := 2, nonce := nonce, id := id } ≠ infoText p b { { infoStart p with version := v } with cipher := 2, nonce := nonce, id := id } := by
  unfold infoText
  intro e
  exact h (List.append_cancel_left (List.append_cancel_right (List.append_cancel_left e))).symm

/-- **C176 is false** of the status: if none of the files is there, nothing is shown, and the program exits with 0, whatever the message of the exception is. -/
theorem C176_missing_violated (p : InfoProgram) (files : Files) (args : List (List Byte)) (hne : args ≠ []) (h : ∀ a ∈ args, a.head? ≠ some 45 ∧ files a = none) :
    cipherInfoCommand p files args = .ok (.returned true, []) ∧ ∀ regard severity, infoExit regard severity true = 0 := by
  refine ⟨?_, fun regard severity => by unfold infoExit; split <;> simp_all⟩
  rw [cipherInfoCommand, if_neg hne]
  generalize infoStart p = s
  clear hne
  induction args with
  | nil => rw [infoLoop]
  | cons a args ih =>
    obtain ⟨h1, h2⟩ := h a List.mem_cons_self
    rw [loop_missing p files a args s true [] h1 h2]
    exact ih fun b hb => h b (List.mem_cons_of_mem _ hb)

/-- **C176 is false** of the status: a file that is refused, because it has been changed or is no enciphered file, is forgotten if a good file is behind it: the program exits with 0. In the other
order it exits with 1. -/
theorem C176_last_violated (p : InfoProgram) (hj : p.packet.junk.length = 4096) (files : Files) (a b file : List Byte) (ha : a.head? ≠ some 45) (hb : b.head? ≠ some 45) (e : Enciphered)
    (he : e.OK p.packet.hex) (fa : files a = some e.text) (fb : files b = some file) (hr : ∀ fuel s, getContentInfo p.packet fuel s file = .ok .refused) :
    ∃ N, ∀ fuel ≥ N,
      cipherInfoCommand (bounded p fuel) files [b, a] = .ok (.returned true, infoText p a e.settings) ∧
      cipherInfoCommand (bounded p fuel) files [a, b] = .ok (.returned false, infoText p a e.settings) ∧
      (∀ regard severity, infoExit regard severity true = 0) ∧ ∀ regard, ∀ severity ≥ 400, infoExit regard severity false = 1 := by
  obtain ⟨N, hN⟩ := C152_settings_partial e.env p.packet he.usual hj he.hex.symm e.settings (infoStart p) he.recordable he.name e.body
  refine ⟨N, fun fuel hf => ⟨?_, ?_, fun regard severity => by unfold infoExit; split <;> simp_all, fun regard severity h => ?_⟩⟩
  · rw [cipherInfoCommand, if_neg (by simp), show infoStart (bounded p fuel) = infoStart p from rfl, loop_refused (bounded p fuel) files b [a] (infoStart p) true [] _ hb fb (hr fuel _),
      loop_shown (bounded p fuel) files a [] _ _ _ _ _ _ _ ha fa (hN fuel hf), infoLoop, List.nil_append]
    simp only [text_bounded]
  · rw [cipherInfoCommand, if_neg (by simp), show infoStart (bounded p fuel) = infoStart p from rfl, loop_shown (bounded p fuel) files a [b] (infoStart p) _ true _ [] _ _ ha fa (hN fuel hf),
      loop_refused (bounded p fuel) files b [] _ _ _ _ hb fb (hr fuel _), infoLoop, List.nil_append]
    simp only [text_bounded]
  · unfold infoExit
    rw [if_neg (c := (_ ∧ _ ∧ _)) (by omega)]
    simp

/-! ### Examples -/

/-- A file that `encipher` has written. -/
def encipheredExample : Enciphered := ⟨packetEnvExample, ascText "/home/a user/R+D 100%.txt", settingsExample, [1, 2, 3]⟩

/-- A program, and a file `a` for it; `b` is not there. -/
example (size : Nat → List Byte) (events lists : List Byte → Bool) :
    let p : InfoProgram := ⟨packetEnvExample, 0, ascText "WizardsToolkit 1.2", size, events, lists⟩
    p.packet.junk.length = 4096 ∧ encipheredExample.OK p.packet.hex ∧
      Holds (fun n => if n = ascText "a" then some encipheredExample.text else none) [(ascText "a", some encipheredExample), (ascText "b", none), (ascText "a", some encipheredExample)] := by
  refine ⟨List.length_replicate, ⟨packet_example.1, rfl, packet_example.2.1, packet_example.2.2⟩, fun a ha => ?_⟩
  generalize encipheredExample = e at ha ⊢
  simp only [List.mem_cons, List.not_mem_nil, or_false] at ha
  have k1 : (ascText "a").head? ≠ some 45 := by decide +kernel
  have k2 : (ascText "b").head? ≠ some 45 := by decide +kernel
  have k3 : ascText "b" ≠ ascText "a" := by decide +kernel
  rcases ha with rfl | rfl | rfl
  · exact ⟨k1, if_pos rfl⟩
  · exact ⟨k2, if_neg k3⟩
  · exact ⟨k1, if_pos rfl⟩

/-- An empty file is refused. -/
example (env : PacketEnv) (fuel : Nat) (s : Settings) : getContentInfo env fuel s [] = .ok .refused := by
  rw [getContentInfo, packetScan]

end Wizard.Props
