import Verif.Model.KeyringPrint
import Verif.Spec.KeyringPrint
import Verif.Lemmas.Keyring
import Verif.Lemmas.Packet
/-! Listing key ring records, complete and torn. -/
namespace Wizard
open Spec.Hash Spec.Keyring Spec.KeyringPrint

theorem hex_spec (s : List Byte) : stringInfoToHexString s = hexOf s := by
  have key : ∀ b : Byte, [hexDigitOut ((b >>> 4) &&& 0x0f), hexDigitOut (b &&& 0x0f)] = hexOfByte b := by decide +kernel
  induction s with
  | nil => rfl
  | cons b s ih =>
    have h := key b
    rw [stringInfoToHexString, ih]
    unfold hexOf
    rw [List.flatMap_cons, ← h]
    rfl

/-- The text of a time fits into the buffer. -/
def ShortClock (env : PrintEnv) : Prop := ∀ t, (env.clock t).length < wizardPathExtent

theorem inMessage_short {s : List Byte} (h : s.length < wizardPathExtent) : inMessage s = s := by
  unfold inMessage; exact List.take_of_length_le (by omega)

theorem protocol_short (a b : BitVec 16) : (decText a.toNat ++ ascText "." ++ decText b.toNat).length < wizardPathExtent := by
  have ha := Props.decText_length 4 a.toNat (by have := a.isLt; omega)
  have hb := Props.decText_length 4 b.toNat (by have := b.isLt; omega)
  have hd : (ascText ".").length = 1 := by decide
  simp only [List.length_append, hd, wizardPathExtent]
  omega

theorem keyText_eq {env : PrintEnv} (hs : ShortClock env) (path : List Byte) (id nonce : StringInfo) (major minor : BitVec 16) (ts : BitVec 64) :
    keyText env path id nonce major minor ts = entry path env.clock ⟨id.bytes, nonce.bytes, major, minor, ts⟩ := by
  unfold keyText entry
  rw [inMessage_short (hs ts), inMessage_short (protocol_short major minor), hex_spec, hex_spec]
  simp only [List.append_assoc]
  have h1 : ascText "\">\n    <keyring:memberOf rdf:resource=\"" = ascText "\">\n" ++ ascText "    <keyring:memberOf rdf:resource=\"" := by decide +kernel
  have h2 : ascText "\"/>\n    <keyring:nonce>" = ascText "\"/>\n" ++ ascText "    <keyring:nonce>" := by decide +kernel
  have h3 : ascText "</keyring:nonce>\n    <keyring:timestamp>" = ascText "</keyring:nonce>\n" ++ ascText "    <keyring:timestamp>" := by decide +kernel
  have h4 : ascText "</keyring:timestamp>\n    <keyring:protocol>" = ascText "</keyring:timestamp>\n" ++ ascText "    <keyring:protocol>" := by decide +kernel
  have h5 : ascText "</keyring:protocol>\n  </keyring:Key>\n" = ascText "</keyring:protocol>\n" ++ ascText "  </keyring:Key>\n" := by decide +kernel
  rw [h1, h2, h3, h4, h5]
  simp only [List.append_assoc]

theorem ringText_eq {env : PrintEnv} (hs : ShortClock env) (path : List Byte) : ringText env path = heading path env.clock env.mtime env.now := by
  unfold ringText heading
  rw [inMessage_short (hs _), inMessage_short (hs _)]
  have h1 : ascText "\">\n    <keyring:modify-date>" = ascText "\">\n" ++ ascText "    <keyring:modify-date>" := by decide +kernel
  have h2 : ascText "</keyring:modify-date>\n    <keyring:create-date>" = ascText "</keyring:modify-date>\n" ++ ascText "    <keyring:create-date>" := by decide +kernel
  have h3 : ascText "</keyring:create-date>\n    <keyring:timestamp>" = ascText "</keyring:create-date>\n" ++ ascText "    <keyring:timestamp>" := by decide +kernel
  have h4 : ascText "</keyring:timestamp>\n  </keyring:Keyring>\n" = ascText "</keyring:timestamp>\n" ++ ascText "  </keyring:Keyring>\n" := by decide +kernel
  rw [h1, h2, h3, h4]
  simp only [List.append_assoc]

/-- The rest of a record, as it is listed. -/
def printTail (fuel : Nat) (env : PrintEnv) (canonical : List Byte) (major minor : BitVec 16) (ts : BitVec 64) (len : BitVec 64) (f : FileIO) :
    Res (List Byte × BitVec 16 × BitVec 16 × FileIO) := do
    let id ← acquireStringInfo len.toNat
    let g ← readFileChunk fuel f id.datum id.length
    let h ← readFile32 fuel g.2.2 0
    if (g.1 && h.1) = false then .ub
    else do
      let key ← acquireStringInfo h.2.1.toNat
      let l ← readFileChunk fuel h.2.2 key.datum key.length
      let m ← readFile32 fuel l.2.2 0
      if (l.1 && m.1) = false then .ub
      else do
        let nonce ← acquireStringInfo m.2.1.toNat
        let n ← readFileChunk fuel m.2.2 nonce.datum nonce.length
        let text := keyText env canonical ⟨id.length, g.2.1⟩ ⟨nonce.length, n.2.1⟩ major minor ts
        if n.1 = false then .ub else .ok (text, major, minor, n.2.2)

/-- An object that has these protocol numbers. -/
def kOf (major minor : BitVec 16) : KeyringInfo := ⟨⟨0, []⟩, ⟨0, []⟩, ⟨0, []⟩, major, minor, 0⟩

theorem printRecord_eq (fuel : Nat) (env : PrintEnv) (canonical : List Byte) (major minor : BitVec 16) (f : FileIO) :
    printRecord fuel env canonical major minor f = (readHead fuel f (kOf major minor) >>= fun x =>
      if x.1 = false then .ub else printTail fuel env canonical x.2.1 x.2.2.1 x.2.2.2.1 x.2.2.2.2.1 x.2.2.2.2.2) := by
  unfold printRecord readHead kOf
  simp only []
  cases readFile32 fuel f 0 with
  | ub => rfl
  | fatal => rfl
  | ok a =>
    rw [Res.ok_bind, Res.ok_bind]
    cases readFile16 fuel a.2.2 major with
    | ub => rfl
    | fatal => rfl
    | ok b =>
      rw [Res.ok_bind, Res.ok_bind]
      cases readFile16 fuel b.2.2 minor with
      | ub => rfl
      | fatal => rfl
      | ok c =>
        rw [Res.ok_bind, Res.ok_bind]
        cases readTimestamp fuel c.2.2 b.2.1 c.2.1 a.2.1 with
        | ub => rfl
        | fatal => rfl
        | ok d =>
          rw [Res.ok_bind, Res.ok_bind]
          cases readFile32 fuel d.2.2 0 with
          | ub => rfl
          | fatal => rfl
          | ok e => rfl

theorem printTail_pre {fuel : Nat} {f : FileIO} {r : Record} {u t : List Byte} {env : PrintEnv} (hs : ShortClock env) (path : List Byte) (hc : Calm f u)
    (hr : r.Fits) (hu : u <+: r.id ++ (counted r.key ++ (counted r.nonce ++ t)))
    (hf : f.sched.length + (r.id.length + r.key.length + r.nonce.length) + 16 < fuel) :
    (∃ u' f', u = r.id ++ (counted r.key ++ (counted r.nonce ++ u')) ∧ u' <+: t ∧
      printTail fuel env path r.major r.minor r.timestamp (BitVec.ofNat 64 r.id.length) f =
        .ok (entry path env.clock (publicOf r), r.major, r.minor, f') ∧ Left f f' u') ∨
    (u.length < r.id.length + (4 + r.key.length + (4 + r.nonce.length)) ∧
      printTail fuel env path r.major r.minor r.timestamp (BitVec.ofNat 64 r.id.length) f = .ub) := by
  unfold printTail
  unfold counted at hu
  simp only [List.append_assoc] at hu
  rw [toNat_ofNat64 hr.id, acquire_lt hr.id, Res.ok_bind]
  simp only []
  rcases readChunk_pre (fuel := fuel) (buf := List.replicate (r.id.length + 128) 0) hc hu (by simp) (by omega) with
    ⟨u1, f1, rfl, hu1, e1, l1⟩ | ⟨f1, hs, _, e1, l1⟩
  · rw [e1, Res.ok_bind]
    simp only []
    rcases read32_pre 0 l1.calm hr.key hu1 (by have := l1.sched; omega) (fuel := fuel) with ⟨u2, f2, rfl, hu2, e2, l2⟩ | ⟨f2, hs, e2, l2⟩
    · replace l2 := l1.trans l2
      rw [e2, Res.ok_bind]
      simp only [Bool.and_self, Bool.true_eq_false, if_false]
      rw [toNat_ofNat64 hr.key, acquire_lt hr.key, Res.ok_bind]
      simp only []
      rcases readChunk_pre (fuel := fuel) (buf := List.replicate (r.key.length + 128) 0) l2.calm hu2 (by simp) (by have := l2.sched; omega) with
        ⟨u3, f3, rfl, hu3, e3, l3⟩ | ⟨f3, hs, _, e3, l3⟩
      · replace l3 := l2.trans l3
        rw [e3, Res.ok_bind]
        simp only []
        rcases read32_pre 0 l3.calm hr.nonce hu3 (by have := l3.sched; omega) (fuel := fuel) with ⟨u4, f4, rfl, hu4, e4, l4⟩ | ⟨f4, hs, e4, l4⟩
        · replace l4 := l3.trans l4
          rw [e4, Res.ok_bind]
          simp only [Bool.and_self, Bool.true_eq_false, if_false]
          rw [toNat_ofNat64 hr.nonce, acquire_lt hr.nonce, Res.ok_bind]
          simp only []
          rcases readChunk_pre (fuel := fuel) (buf := List.replicate (r.nonce.length + 128) 0) l4.calm hu4 (by simp) (by have := l4.sched; omega) with
            ⟨u5, f5, rfl, hu5, e5, l5⟩ | ⟨f5, hs, hp, e5, l5⟩
          · replace l5 := l4.trans l5
            rw [e5, Res.ok_bind]
            simp only [Bool.true_eq_false, if_false]
            refine .inl ⟨u5, f5, by unfold counted; simp, hu5, ?_, l5⟩
            rw [keyText_eq hs, (read_wf r.id).2, (read_wf r.nonce).2]
            rfl
          · rw [e5, Res.ok_bind]
            exact .inr ⟨by simp only [List.length_append, le_length]; omega, by simp⟩
        · rw [e4, Res.ok_bind]
          exact .inr ⟨by simp only [List.length_append, le_length]; omega, by simp⟩
      · obtain ⟨f4, e4, _⟩ := read32_nil 0 (l2.trans l3).calm (by have := (l2.trans l3).sched; omega) (fuel := fuel)
        rw [e3, Res.ok_bind]
        simp only []
        rw [e4, Res.ok_bind]
        exact .inr ⟨by simp only [List.length_append, le_length]; omega, by simp⟩
    · rw [e2, Res.ok_bind]
      exact .inr ⟨by simp only [List.length_append]; omega, by simp⟩
  · obtain ⟨f2, e2, _⟩ := read32_nil 0 l1.calm (by have := l1.sched; omega) (fuel := fuel)
    rw [e1, Res.ok_bind]
    simp only []
    rw [e2, Res.ok_bind]
    exact .inr ⟨by omega, by simp⟩

/-- A record after its mark, complete or torn. -/
theorem printRecord_pre {fuel : Nat} {f : FileIO} {r : Record} {u t : List Byte} {env : PrintEnv} (hs : ShortClock env) (path : List Byte)
    (major minor : BitVec 16) (hc : Calm f u)
    (hr : r.Fits) (hu : u <+: r.body ++ t) (hf : f.sched.length + r.body.length + 16 < fuel) :
    (∃ u' f', u = r.body ++ u' ∧ u' <+: t ∧
      printRecord fuel env path major minor f = .ok (entry path env.clock (publicOf r), r.major, r.minor, f') ∧ Left f f' u') ∨
    (u.length < r.body.length ∧ printRecord fuel env path major minor f = .ub) := by
  have hbody : r.body.length = r.stamp.length + (4 + r.id.length + (4 + r.key.length + (4 + r.nonce.length))) := by
    unfold Record.body counted; simp [le_length]; omega
  rw [printRecord_eq]
  have hu' : u <+: r.stamp ++ (le 4 r.id.length ++ (r.id ++ (counted r.key ++ (counted r.nonce ++ t)))) := by
    unfold Record.body at hu
    unfold counted at hu ⊢
    simpa only [List.append_assoc] using hu
  rcases readHead_pre (kOf major minor) hc hr.id hr.old hu' (by omega) (fuel := fuel) with ⟨u1, f1, rfl, hu1, e1, l1⟩ | ⟨hsh, x, e1⟩
  · rw [e1, Res.ok_bind]
    simp only [Bool.true_eq_false, if_false]
    rcases printTail_pre hs path l1.calm hr hu1 (by have := l1.sched; omega) (fuel := fuel) with
      ⟨u2, f2, rfl, hu2, e2, l2⟩ | ⟨hsh, e2⟩
    · refine .inl ⟨u2, f2, ?_, hu2, e2, l1.trans l2⟩
      unfold Record.body counted; simp
    · refine .inr ⟨?_, e2⟩
      simp only [List.length_append, le_length]; omega
  · rw [e1, Res.ok_bind]
    exact .inr ⟨by omega, rfl⟩

/-- A mark. -/
theorem printLoop_mark {fuel turns : Nat} {f : FileIO} {u : List Byte} (env : PrintEnv) (path : List Byte) (major minor : BitVec 16)
    (hc : Calm f (mark ++ u)) (hf : f.sched.length + 16 < fuel) :
    ∃ f', Left f f' u ∧ printLoop fuel env path (turns + 1) major minor f =
      (printRecord fuel env path major minor f' >>= fun r => printLoop fuel env path turns r.2.1 r.2.2.1 r.2.2.2 >>= fun more => .ok (r.1 ++ more)) := by
  rcases read32_pre 0 hc mark_eq (List.prefix_refl _) hf with ⟨u', f', h1, _, h2, h3⟩ | ⟨f', h1, _⟩
  · have : u = u' := List.append_cancel_left h1
    subst this
    refine ⟨f', h3, ?_⟩
    rw [printLoop, h2, Res.ok_bind]
    simp only [Bool.true_eq_false, if_false]
    rw [if_neg (by simp [wizardSignature])]
  · unfold mark at h1
    rw [List.length_append, le_length] at h1; omega

theorem printLoop_end {fuel turns : Nat} {f : FileIO} {u : List Byte} (env : PrintEnv) (path : List Byte) (major minor : BitVec 16)
    (hc : Calm f u) (hu : u.length < 4) (hf : f.sched.length + 16 < fuel) : printLoop fuel env path (turns + 1) major minor f = .ok [] := by
  obtain ⟨f', h1, _⟩ := readFile32_short 0 hc hu (by omega) (fuel := fuel)
  rw [printLoop, h1]
  rfl

/-- The complete records are listed one by one. -/
theorem printLoop_all {fuel turns : Nat} {u : List Byte} {env : PrintEnv} (hs : ShortClock env) (path : List Byte) :
    ∀ (rs : List Record) (f : FileIO) (major minor : BitVec 16),
    (∀ r ∈ rs, r.Fits) → Calm f (encodeAll rs ++ u) → f.sched.length + (encodeAll rs).length + 16 < fuel →
    ∃ f' a b, Left f f' u ∧ printLoop fuel env path (rs.length + turns) major minor f =
      (printLoop fuel env path turns a b f' >>= fun more => .ok ((rs.map publicOf).flatMap (entry path env.clock) ++ more)) := by
  intro rs
  induction rs with
  | nil =>
    intro f major minor _ hc _
    refine ⟨f, major, minor, ⟨hc, Nat.le_refl _⟩, ?_⟩
    simp only [List.length_nil, Nat.zero_add, List.map_nil, List.flatMap_nil, List.nil_append]
    cases printLoop fuel env path turns major minor f <;> rfl
  | cons r rs ih =>
    intro f major minor hr hc hf
    rw [encodeAll_cons, List.length_append, encode_length] at hf
    rw [encodeAll_cons, Record.encode, List.append_assoc, List.append_assoc] at hc
    obtain ⟨f1, l1, e1⟩ := printLoop_mark (fuel := fuel) (turns := rs.length + turns) env path major minor hc (by omega)
    rw [show (r :: rs).length + turns = (rs.length + turns) + 1 by simp; omega, e1]
    rcases printRecord_pre (fuel := fuel) (t := encodeAll rs ++ u) hs path major minor l1.calm (hr r List.mem_cons_self) (List.prefix_refl _) (by have := l1.sched; omega) with
      ⟨u', f', h1, _, h2, h3⟩ | ⟨h1, _⟩
    · have : encodeAll rs ++ u = u' := List.append_cancel_left h1
      subst this
      rw [h2, Res.ok_bind]
      simp only []
      have hl := (l1.trans h3).sched
      obtain ⟨f'', a, b, l2, e2⟩ := ih f' r.major r.minor (fun x hx => hr x (List.mem_cons_of_mem _ hx)) h3.calm (by omega)
      refine ⟨f'', a, b, (l1.trans h3).trans l2, ?_⟩
      rw [e2, List.map_cons, List.flatMap_cons]
      generalize entry path env.clock (publicOf r) = x
      generalize (rs.map publicOf).flatMap (entry path env.clock) = y
      generalize printLoop fuel env path turns a b f'' = z
      cases z with
      | ub => rfl
      | fatal => rfl
      | ok more => simp only [Res.ok_bind, List.append_assoc]
    · rw [List.length_append] at h1; omega

/-- A torn record, the mark of which is complete. -/
theorem printLoop_torn {fuel turns : Nat} {f : FileIO} {u : List Byte} {r : Record} {env : PrintEnv} (hs : ShortClock env) (path : List Byte)
    (major minor : BitVec 16) (hr : r.Fits) (hc : Calm f u) (hu : u <+: r.encode) (h4 : 4 ≤ u.length) (hlt : u.length < r.encode.length)
    (hf : f.sched.length + r.encode.length + 16 < fuel) : printLoop fuel env path (turns + 1) major minor f = .ub := by
  rcases prefix_cases (a := mark) (t := r.body) hu with ⟨v, rfl, hv⟩ | ⟨h, _⟩
  · obtain ⟨f1, l1, e1⟩ := printLoop_mark (fuel := fuel) (turns := turns) env path major minor hc (by omega)
    have hvl : (mark ++ v).length = 4 + v.length := by unfold mark; rw [List.length_append, le_length]
    rw [hvl] at hlt
    have hbl := encode_length r
    rcases printRecord_pre (t := []) hs path major minor l1.calm hr (by simpa using hv) (by have := l1.sched; omega) (fuel := fuel) with
      ⟨u', f', h1, _⟩ | ⟨_, h2⟩
    · have := congrArg List.length h1
      rw [List.length_append] at this; omega
    · rw [e1, h2]; rfl
  · unfold mark at h; rw [le_length] at h; omega

/-- Bytes that are not a mark. -/
theorem printLoop_bad {fuel turns v : Nat} {f : FileIO} {u : List Byte} (env : PrintEnv) (path : List Byte) (major minor : BitVec 16)
    (hc : Calm f (le 4 v ++ u)) (hv : v < 2 ^ 32) (hne : v ≠ 0xabacadab) (hf : f.sched.length + 16 < fuel) :
    printLoop fuel env path (turns + 1) major minor f = .ub := by
  rcases read32_pre 0 hc hv (List.prefix_refl _) hf with ⟨u', f', h1, _, h2, h3⟩ | ⟨f', h1, _⟩
  · rw [printLoop, h2, Res.ok_bind]
    simp only [Bool.true_eq_false, if_false]
    rw [if_pos]
    intro h
    have := congrArg BitVec.toNat h
    rw [toNat_ofNat64 hv] at this
    exact hne this
  · rw [List.length_append, le_length] at h1; omega

/-- The header is passed. -/
theorem print_header {fuel turns : Nat} {m t : StringInfo} {u path : List Byte} {e : IOEnv} {env : PrintEnv} (hh : Header m t) (he : Quiet e)
    (hp : canonicalXMLContent env.heap env.path false = .ok path)
    (hf : e.sched.length + (m.length + t.length) + 16 < fuel) :
    ∃ f, Calm f u ∧ f.sched.length ≤ e.sched.length ∧
      printKeyringProperties fuel turns m t env (some (m.bytes ++ t.bytes ++ u)) e =
        (printLoop fuel env path turns 0 0 f >>= fun keys => .ok (true, ringText env path ++ keys)) := by
  have hc : Calm (openFile (m.bytes ++ t.bytes ++ u) e) (m.bytes ++ (t.bytes ++ u)) := ⟨he.sched, he.eintr, by
    unfold FileIO.rest openFile; simp⟩
  have hs : (openFile (m.bytes ++ t.bytes ++ u) e).sched.length = e.sched.length := rfl
  obtain ⟨f1, e1, l1⟩ := expectBytes_ok hh.mWF hh.mLt hc (by omega) (fuel := fuel)
  obtain ⟨f2, e2, l2⟩ := expectBytes_ok hh.tWF hh.tLt l1.calm (by have := l1.sched; omega) (fuel := fuel)
  refine ⟨f2, l2.calm, (l1.trans l2).sched, ?_⟩
  unfold printKeyringProperties
  simp only []
  rw [hp, Res.ok_bind, e1, Res.ok_bind, e2, Res.ok_bind]

end Wizard
