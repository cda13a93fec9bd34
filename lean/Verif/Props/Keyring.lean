import Verif.Lemmas.KeyringWrite
/-! C43, C44, C45, C78: the key ring. -/
namespace Wizard.Props
open Wizard Wizard.Spec Wizard.Spec.Keyring

/-! ### Export -/

/-- The object has the id it had, and the key, the nonce, the protocol and the time stamp of the record. -/
structure HasKey (k k' : KeyringInfo) (r : Record) : Prop where
  id : k'.id = k.id
  key : k'.key.bytes = r.key
  nonce : k'.nonce.bytes = r.nonce
  protocol : k'.major = r.major ∧ k'.minor = r.minor
  timestamp : k'.timestamp = r.timestamp

theorem lookup_split {rs : List Record} {id : List Byte} {r : Record} (h : lookup rs id = some r) :
    ∃ a b, rs = a ++ r :: b ∧ r.id = id ∧ ∀ x ∈ a, x.id ≠ id := by
  unfold lookup at h
  rw [List.find?_eq_some_iff_append] at h
  obtain ⟨h1, a, b, rfl, h2⟩ := h
  exact ⟨a, b, rfl, by simpa using h1, fun x hx => by simpa using h2 x hx⟩

theorem lookup_none {rs : List Record} {id : List Byte} (h : lookup rs id = none) : ∀ x ∈ rs, x.id ≠ id := by
  unfold lookup at h
  rw [List.find?_eq_none] at h
  intro x hx
  simpa using h x hx

/-- Export from a file that begins with complete records, whatever follows. -/
theorem export_got {fuel turns : Nat} {m t : StringInfo} {u : List Byte} {e : IOEnv} {k : KeyringInfo} {rs : List Record} {r : Record}
    (hh : Header m t) (he : Quiet e) (hk : k.id.WF) (hr : ∀ r ∈ rs, r.Fits) (hl : lookup rs k.id.bytes = some r)
    (hf : e.sched.length + (ring (m.bytes ++ t.bytes) rs).length + 16 < fuel) (ht : rs.length < turns) :
    ∃ k', exportKeyring fuel turns m t (some (ring (m.bytes ++ t.bytes) rs ++ u)) e k = .ok (true, k') ∧ Got k k' r r.nonce := by
  have lm := StringInfo.bytes_length hh.mWF
  have lt := StringInfo.bytes_length hh.tWF
  obtain ⟨a, b, rfl, h1, h2⟩ := lookup_split hl
  unfold ring at hf ⊢
  rw [encodeAll_append, encodeAll_cons] at hf ⊢
  simp only [List.length_append] at hf ht
  rw [show m.bytes ++ t.bytes ++ (encodeAll a ++ (r.encode ++ encodeAll b)) ++ u =
    m.bytes ++ t.bytes ++ (encodeAll a ++ (r.encode ++ (encodeAll b ++ u))) by simp]
  obtain ⟨f, c, l, e1⟩ := export_header (fuel := fuel) (turns := turns) (u := encodeAll a ++ (r.encode ++ (encodeAll b ++ u))) k hh he (by omega)
  rw [e1]
  obtain ⟨f', l', e2⟩ := exportLoop_skip (fuel := fuel) (turns := turns - a.length) a f k hk
    (fun x hx => ⟨hr x (by simp [hx]), h2 x hx⟩) c (by omega)
  rw [show turns = a.length + (turns - a.length) by omega, e2]
  obtain ⟨k', e3, g⟩ := exportLoop_hit (fuel := fuel) (turns := turns - a.length - 1) (r := r) (passedAll k a)
    (by rw [passedAll_id]; exact hk) (hr r (by simp)) (by rw [passedAll_id]; exact h1.symm) l'.calm (by have := l'.sched; omega)
  rw [show turns - a.length = turns - a.length - 1 + 1 by simp at ht; omega]
  exact ⟨k', e3, ⟨g.id.trans (passedAll_id ..), g.keyWF, g.key, g.nonceWF, g.nonce, g.major, g.minor, g.timestamp⟩⟩

/-- Export from a file that begins with complete records, whatever follows. -/
theorem export_found {fuel turns : Nat} {m t : StringInfo} {u : List Byte} {e : IOEnv} {k : KeyringInfo} {rs : List Record} {r : Record}
    (hh : Header m t) (he : Quiet e) (hk : k.id.WF) (hr : ∀ r ∈ rs, r.Fits) (hl : lookup rs k.id.bytes = some r)
    (hf : e.sched.length + (ring (m.bytes ++ t.bytes) rs).length + 16 < fuel) (ht : rs.length < turns) :
    ∃ k', exportKeyring fuel turns m t (some (ring (m.bytes ++ t.bytes) rs ++ u)) e k = .ok (true, k') ∧ HasKey k k' r := by
  obtain ⟨k', e, g⟩ := export_got (u := u) hh he hk hr hl hf ht
  exact ⟨k', e, ⟨g.id, g.key, g.nonce, ⟨g.major, g.minor⟩, g.timestamp⟩⟩

/-- Export of an id that none of the complete records has: what follows decides. -/
theorem export_rest {fuel turns : Nat} {m t : StringInfo} {u : List Byte} {e : IOEnv} {k : KeyringInfo} {rs : List Record}
    (hh : Header m t) (he : Quiet e) (hk : k.id.WF) (hr : ∀ r ∈ rs, r.Fits) (hl : lookup rs k.id.bytes = none)
    (hf : e.sched.length + (ring (m.bytes ++ t.bytes) rs).length + 16 < fuel) (ht : rs.length ≤ turns) :
    ∃ f, Calm f u ∧ f.sched.length ≤ e.sched.length ∧
      exportKeyring fuel turns m t (some (ring (m.bytes ++ t.bytes) rs ++ u)) e k = exportLoop fuel (turns - rs.length) f (passedAll k rs) := by
  have lm := StringInfo.bytes_length hh.mWF
  have lt := StringInfo.bytes_length hh.tWF
  unfold ring at hf ⊢
  simp only [List.length_append] at hf
  rw [List.append_assoc (m.bytes ++ t.bytes)]
  obtain ⟨f, c, l, e1⟩ := export_header (fuel := fuel) (turns := turns) (u := encodeAll rs ++ u) k hh he (by omega)
  rw [e1]
  obtain ⟨f', l', e2⟩ := exportLoop_skip (fuel := fuel) (turns := turns - rs.length) rs f k hk
    (fun x hx => ⟨hr x hx, lookup_none hl x hx⟩) c (by omega)
  rw [show turns = rs.length + (turns - rs.length) by omega, e2]
  exact ⟨f', l'.calm, Nat.le_trans l'.sched l, by simp⟩

/-- **C43** `ExportKeyringKey` on a key ring that holds some records returns True with the key and the nonce of the record with
that id, and False, leaving key and nonce of the object, if there is none, under any schedule of short transfers. -/
theorem C43_export (m t : StringInfo) (hh : Header m t) (rs : List Record) (hr : ∀ r ∈ rs, r.Fits) (e : IOEnv) (he : Quiet e)
    (k : KeyringInfo) (hk : k.id.WF) (fuel turns : Nat)
    (hf : e.sched.length + (ring (m.bytes ++ t.bytes) rs).length + 16 < fuel) (ht : rs.length < turns) :
    match lookup rs k.id.bytes with
    | some r => ∃ k', exportKeyring fuel turns m t (fileOf (m.bytes ++ t.bytes) rs) e k = .ok (true, k') ∧ HasKey k k' r
    | none => ∃ k', exportKeyring fuel turns m t (fileOf (m.bytes ++ t.bytes) rs) e k = .ok (false, k') ∧
        k'.id = k.id ∧ k'.key = k.key ∧ k'.nonce = k.nonce := by
  unfold fileOf
  by_cases h0 : rs = []
  · subst h0
    exact ⟨k, rfl, rfl, rfl, rfl⟩
  · rw [if_neg h0]
    cases hl : lookup rs k.id.bytes with
    | some r =>
      obtain ⟨k', h1, h2⟩ := export_found (u := []) hh he hk hr hl hf ht
      rw [List.append_nil] at h1
      exact ⟨k', h1, h2⟩
    | none =>
      obtain ⟨f, c, l, h1⟩ := export_rest (u := []) hh he hk hr hl hf (by omega) (turns := turns)
      rw [List.append_nil] at h1
      simp only []
      rw [h1, show turns - rs.length = turns - rs.length - 1 + 1 by omega, exportLoop_end _ c (by simp) (by omega)]
      refine ⟨_, rfl, passedAll_id .., ?_, ?_⟩
      · clear h1 l c hl ht hf hr h0
        induction rs generalizing k with
        | nil => rfl
        | cons r rs ih => exact ih (passed k r) hk
      · clear h1 l c hl ht hf hr h0
        induction rs generalizing k with
        | nil => rfl
        | cons r rs ih => exact ih (passed k r) hk

/-! ### Import -/

theorem fits_of {k : KeyringInfo} (h : KeyOK k) (ho : ¬ (recordOf k).Old) : (recordOf k).Fits := by
  have li := StringInfo.bytes_length h.id
  have lk := StringInfo.bytes_length h.key
  have ln := StringInfo.bytes_length h.nonce
  refine ⟨?_, ?_, ?_, fun h' => absurd h' ho⟩
  · show k.id.bytes.length < _; rw [li]; exact h.idLt
  · show k.key.bytes.length < _; rw [lk]; exact h.keyLt
  · show k.nonce.bytes.length < _; rw [ln]; exact h.nonceLt

/-- An object that can be imported: well formed strings of less than 2^32 bytes, and not protocol 1.0 (a new object has
protocol 1.1). -/
structure Importable (k : KeyringInfo) : Prop where
  ok : KeyOK k
  new : ¬ (k.major = 1 ∧ k.minor = 0)

/-- Steps enough for an import. -/
def importFuel (m t : StringInfo) (rs : List Record) (e1 e2 : IOEnv) (k : KeyringInfo) : Nat :=
  e1.sched.length + e2.sched.length + (ring (m.bytes ++ t.bytes) rs).length + (recordOf k).encode.length + 16

/-- **C43, C44** `ImportKeyringKey` on a key ring that holds some records: if the id is among them it returns False and the file
is what it was; otherwise it returns True and the file holds the same records and the new one, under any schedule of short
transfers, and of interruptions of the writes. -/
theorem C43_import (m t : StringInfo) (hh : Header m t) (rs : List Record) (hr : ∀ r ∈ rs, r.Fits) (e1 e2 : IOEnv) (he1 : Quiet e1)
    (he2 : NoFail e2.sched) (k : KeyringInfo) (hk : Importable k) (fuel turns : Nat) (hf : importFuel m t rs e1 e2 k < fuel)
    (ht : rs.length < turns) :
    importKeyring fuel turns m t (fileOf (m.bytes ++ t.bytes) rs) e1 e2 k =
      .ok (!(lookup rs k.id.bytes).isSome, fileOf (m.bytes ++ t.bytes) (addRecord rs (recordOf k))) := by
  have lm := StringInfo.bytes_length hh.mWF
  have lt := StringInfo.bytes_length hh.tWF
  unfold importFuel at hf
  have hw := written_eq (k := k) hk.new
  have hrl : m.length + t.length ≤ (ring (m.bytes ++ t.bytes) rs).length := by
    unfold ring; simp only [List.length_append]; omega
  have hexp := C43_export m t hh rs hr e1 he1 k hk.ok.id fuel turns (by omega) ht
  unfold importKeyring
  cases hl : lookup rs k.id.bytes with
  | some r =>
    rw [hl] at hexp
    obtain ⟨k', h1, _⟩ := hexp
    rw [h1, Res.ok_bind]
    have : addRecord rs (recordOf k) = rs := by
      unfold addRecord
      rw [show (recordOf k).id = k.id.bytes from rfl, hl]; rfl
    rw [this]
    rfl
  | none =>
    rw [hl] at hexp
    obtain ⟨k', h1, _⟩ := hexp
    rw [h1, Res.ok_bind]
    have hadd : addRecord rs (recordOf k) = rs ++ [recordOf k] := by
      unfold addRecord
      rw [show (recordOf k).id = k.id.bytes from rfl, hl]; rfl
    rw [hadd]
    simp only [Bool.false_eq_true, if_false, Option.isSome_none, Bool.not_false]
    by_cases h0 : rs = []
    · subst h0
      obtain ⟨st, f', h2, h3⟩ := importWrites_new_full hk.ok hh he2 (e := e2) (fuel := fuel) (by rw [hw]; omega)
      have : (fileOf (m.bytes ++ t.bytes) ([] : List Record)).getD [] = [] := rfl
      rw [this, h2, Res.ok_bind, h3, hw]
      simp [fileOf, ring, encodeAll]
    · have : (fileOf (m.bytes ++ t.bytes) rs).getD [] = m.bytes ++ t.bytes ++ encodeAll rs := by
        unfold fileOf; rw [if_neg h0]; rfl
      obtain ⟨st, f', h2, h3⟩ := importWrites_old_full (u := encodeAll rs) hk.ok hh he2 (e := e2) (fuel := fuel) (by rw [hw]; omega)
      rw [this, h2, Res.ok_bind, h3, hw]
      have he : fileOf (m.bytes ++ t.bytes) (rs ++ [recordOf k]) = some (m.bytes ++ t.bytes ++ encodeAll rs ++ (recordOf k).encode) := by
        unfold fileOf ring
        rw [if_neg (by simp), encodeAll_append]
        simp [encodeAll]
      rw [he]

/-! ### Histories -/

/-- Imports one after the other, each with what the system calls of its search and of its writes do. -/
def runImports (fuel turns : Nat) (m t : StringInfo) : Option (List Byte) → List (KeyringInfo × IOEnv × IOEnv) → Res (Option (List Byte))
  | file, [] => .ok file
  | file, x :: xs => do
    let r ← importKeyring fuel turns m t file x.2.1 x.2.2 x.1
    runImports fuel turns m t r.2 xs

/-- The records after the imports. -/
def recordsAfter (rs : List Record) (hist : List (KeyringInfo × IOEnv × IOEnv)) : List Record :=
  hist.foldl (fun rs x => addRecord rs (recordOf x.1)) rs

/-- Every import of the history is of an importable object, its search is not interrupted and its writes do not fail. -/
def GoodHistory (hist : List (KeyringInfo × IOEnv × IOEnv)) : Prop :=
  ∀ x ∈ hist, Importable x.1 ∧ Quiet x.2.1 ∧ NoFail x.2.2.sched

theorem addRecord_fits {rs : List Record} {r : Record} (h : ∀ x ∈ rs, x.Fits) (hr : r.Fits) : ∀ x ∈ addRecord rs r, x.Fits := by
  unfold addRecord
  split
  · exact h
  · intro x hx
    rcases List.mem_append.mp hx with hx | hx
    · exact h x hx
    · rw [List.mem_singleton] at hx; rw [hx]; exact hr

theorem runImports_spec {m t : StringInfo} (hh : Header m t) (hist : List (KeyringInfo × IOEnv × IOEnv)) (hg : GoodHistory hist) :
    ∀ rs : List Record, (∀ r ∈ rs, r.Fits) → ∃ N, ∀ fuel turns, N ≤ fuel → N ≤ turns →
      runImports fuel turns m t (fileOf (m.bytes ++ t.bytes) rs) hist = .ok (fileOf (m.bytes ++ t.bytes) (recordsAfter rs hist)) ∧
      ∀ r ∈ recordsAfter rs hist, r.Fits := by
  induction hist with
  | nil => intro rs hr; exact ⟨0, fun _ _ _ _ => ⟨rfl, hr⟩⟩
  | cons x xs ih =>
    intro rs hr
    obtain ⟨h1, h2, h3⟩ := hg x (List.mem_cons_self ..)
    obtain ⟨N, hN⟩ := ih (fun y hy => hg y (List.mem_cons_of_mem _ hy)) (addRecord rs (recordOf x.1)) (addRecord_fits hr (fits_of h1.ok h1.new))
    refine ⟨N + importFuel m t rs x.2.1 x.2.2 x.1 + rs.length + 1, fun fuel turns hf ht => ?_⟩
    rw [runImports, C43_import m t hh rs hr x.2.1 x.2.2 h2 h3 x.1 h1 fuel turns (by omega) (by omega), Res.ok_bind]
    exact hN fuel turns (by omega) (by omega)

theorem lookup_after (id : List Byte) (hist : List (KeyringInfo × IOEnv × IOEnv)) : ∀ rs : List Record,
    lookup (recordsAfter rs hist) id =
      (lookup rs id).or ((hist.find? (fun x => x.1.id.bytes == id)).map (fun x => recordOf x.1)) := by
  induction hist with
  | nil => intro rs; simp [recordsAfter]
  | cons x xs ih =>
    intro rs
    show lookup (recordsAfter (addRecord rs (recordOf x.1)) xs) id = _
    rw [ih]
    rw [List.find?_cons]
    have happ : ∀ a b : List Record, lookup (a ++ b) id = (lookup a id).or (lookup b id) := by
      intro a b; unfold lookup; exact List.find?_append
    by_cases hx : x.1.id.bytes = id
    · have h1 : (x.1.id.bytes == id) = true := by simpa using hx
      rw [h1]
      simp only [Option.map_some]
      unfold addRecord
      rw [show (recordOf x.1).id = x.1.id.bytes from rfl, hx]
      cases hl : lookup rs id with
      | some r => simp [hl]
      | none =>
        simp only [Option.isSome_none, Bool.false_eq_true, if_false]
        rw [happ, hl]
        have : lookup [recordOf x.1] id = some (recordOf x.1) := by
          unfold lookup
          rw [List.find?_cons, show ((recordOf x.1).id == id) = true from h1]
        rw [this]; simp
    · have h1 : (x.1.id.bytes == id) = false := by simpa using hx
      rw [h1]
      simp only []
      unfold addRecord
      split
      · rfl
      · rw [happ]
        have : lookup [recordOf x.1] id = none := by
          unfold lookup
          rw [List.find?_cons, show ((recordOf x.1).id == id) = false from h1]; rfl
        rw [this]; simp

/-- **C43** After any history of imports into a new key ring, `ExportKeyringKey` returns exactly the key and the nonce of the
first import with that id, and False if there was none. -/
theorem C43_history (m t : StringInfo) (hh : Header m t) (hist : List (KeyringInfo × IOEnv × IOEnv)) (hg : GoodHistory hist)
    (e : IOEnv) (he : Quiet e) (k : KeyringInfo) (hk : k.id.WF) :
    ∃ N, ∀ fuel turns, N ≤ fuel → N ≤ turns → ∃ file, runImports fuel turns m t none hist = .ok file ∧
      match hist.find? (fun x => x.1.id.bytes == k.id.bytes) with
      | some x => ∃ k', exportKeyring fuel turns m t file e k = .ok (true, k') ∧ k'.id = k.id ∧
          k'.key.bytes = x.1.key.bytes ∧ k'.nonce.bytes = x.1.nonce.bytes ∧ k'.timestamp = x.1.timestamp
      | none => ∃ k', exportKeyring fuel turns m t file e k = .ok (false, k') ∧ k'.id = k.id ∧ k'.key = k.key ∧ k'.nonce = k.nonce := by
  obtain ⟨N, hN⟩ := runImports_spec hh hist hg [] (fun _ h => by cases h)
  refine ⟨N + e.sched.length + (ring (m.bytes ++ t.bytes) (recordsAfter [] hist)).length + (recordsAfter [] hist).length + 17,
    fun fuel turns hf ht => ?_⟩
  obtain ⟨h1, h2⟩ := hN fuel turns (by omega) (by omega)
  refine ⟨_, h1, ?_⟩
  have h3 := C43_export m t hh (recordsAfter [] hist) h2 e he k hk fuel turns (by omega) (by omega)
  rw [lookup_after] at h3
  have h0 : lookup [] k.id.bytes = none := rfl
  rw [h0, Option.none_or] at h3
  cases hx : hist.find? (fun x => x.1.id.bytes == k.id.bytes) with
  | some x =>
    rw [hx] at h3
    obtain ⟨k', h4, h5⟩ := h3
    exact ⟨k', h4, h5.id, h5.key, h5.nonce, h5.timestamp⟩
  | none =>
    rw [hx] at h3
    exact h3

/-! ### C44 -/

/-- **C44** After any history of imports, importing an id again returns False and leaves the file as it was. -/
theorem C44_duplicate (m t : StringInfo) (hh : Header m t) (hist : List (KeyringInfo × IOEnv × IOEnv)) (hg : GoodHistory hist)
    (e1 e2 : IOEnv) (he1 : Quiet e1) (he2 : NoFail e2.sched) (k : KeyringInfo) (hk : Importable k)
    (hid : ∃ x ∈ hist, x.1.id.bytes = k.id.bytes) :
    ∃ N, ∀ fuel turns, N ≤ fuel → N ≤ turns → ∃ file, runImports fuel turns m t none hist = .ok file ∧
      importKeyring fuel turns m t file e1 e2 k = .ok (false, file) := by
  obtain ⟨N, hN⟩ := runImports_spec hh hist hg [] (fun _ h => by cases h)
  refine ⟨N + importFuel m t (recordsAfter [] hist) e1 e2 k + (recordsAfter [] hist).length + 1, fun fuel turns hf ht => ?_⟩
  obtain ⟨h1, h2⟩ := hN fuel turns (by omega) (by omega)
  refine ⟨_, h1, ?_⟩
  have h3 := C43_import m t hh (recordsAfter [] hist) h2 e1 e2 he1 he2 k hk fuel turns (by omega) (by omega)
  have hl : (lookup (recordsAfter [] hist) k.id.bytes).isSome = true := by
    rw [lookup_after]
    have h0 : lookup [] k.id.bytes = none := rfl
    rw [h0, Option.none_or, Option.isSome_map, List.find?_isSome]
    obtain ⟨x, hx, h⟩ := hid
    exact ⟨x, hx, by simpa using h⟩
  have hadd : addRecord (recordsAfter [] hist) (recordOf k) = recordsAfter [] hist := by
    unfold addRecord
    rw [show (recordOf k).id = k.id.bytes from rfl, hl]; rfl
  rw [hl, hadd] at h3
  exact h3

theorem addRecord_nodup {rs : List Record} (r : Record) (h : (rs.map Record.id).Nodup) : ((addRecord rs r).map Record.id).Nodup := by
  unfold addRecord
  cases hl : lookup rs r.id with
  | some x => simpa using h
  | none =>
    simp only [Option.isSome_none, Bool.false_eq_true, if_false]
    rw [List.map_append, List.nodup_append]
    refine ⟨h, by simp, ?_⟩
    intro a ha b hb
    rw [List.map_singleton, List.mem_singleton] at hb
    obtain ⟨x, hx, rfl⟩ := List.mem_map.mp ha
    rw [hb]
    exact lookup_none hl x hx

/-- **C44** After any history of imports the file is a header and records with different ids. -/
theorem C44_unique (m t : StringInfo) (hh : Header m t) (hist : List (KeyringInfo × IOEnv × IOEnv)) (hg : GoodHistory hist) :
    ∃ rs N, (rs.map Record.id).Nodup ∧ ∀ fuel turns, N ≤ fuel → N ≤ turns →
      runImports fuel turns m t none hist = .ok (fileOf (m.bytes ++ t.bytes) rs) := by
  obtain ⟨N, hN⟩ := runImports_spec hh hist hg [] (fun _ h => by cases h)
  refine ⟨recordsAfter [] hist, N, ?_, fun fuel turns hf ht => (hN fuel turns hf ht).1⟩
  have : ∀ rs : List Record, (rs.map Record.id).Nodup → ((recordsAfter rs hist).map Record.id).Nodup := by
    clear hN hg
    induction hist with
    | nil => intro rs h; exact h
    | cons x xs ih => intro rs h; exact ih _ (addRecord_nodup _ h)
  exact this [] (by simp)

/-! ### C45 -/

/-- **C45** If the process dies during the writes of an import, at any point and after any short or interrupted transfers, the
file of the existing key ring is its old content and the first bytes of the new record. -/
theorem C45_crash_states (m t : StringInfo) (hh : Header m t) (rs : List Record) (hr : ∀ r ∈ rs, r.Fits) (hne : rs ≠ []) (e1 e2 : IOEnv)
    (he1 : Quiet e1) (he2 : Sane e2.sched) (k : KeyringInfo) (hk : Importable k) (hid : lookup rs k.id.bytes = none) (fuel turns : Nat)
    (hf : importFuel m t rs e1 e2 k < fuel) (ht : rs.length < turns) :
    ∃ j, j ≤ (recordOf k).encode.length ∧ importKeyring fuel turns m t (fileOf (m.bytes ++ t.bytes) rs) e1 e2 k =
      .ok (true, some (ring (m.bytes ++ t.bytes) rs ++ (recordOf k).encode.take j)) := by
  have lm := StringInfo.bytes_length hh.mWF
  have lt := StringInfo.bytes_length hh.tWF
  unfold importFuel at hf
  have hrl : m.length + t.length ≤ (ring (m.bytes ++ t.bytes) rs).length := by
    unfold ring; simp only [List.length_append]; omega
  have hw := written_eq (k := k) hk.new
  have hexp := C43_export m t hh rs hr e1 he1 k hk.ok.id fuel turns (by omega) ht
  rw [hid] at hexp
  obtain ⟨k', h1, _⟩ := hexp
  have hfile : (fileOf (m.bytes ++ t.bytes) rs).getD [] = m.bytes ++ t.bytes ++ encodeAll rs := by
    unfold fileOf; rw [if_neg hne]; rfl
  obtain ⟨st, f', h2, _, h3⟩ := importWrites_old (u := encodeAll rs) hk.ok hh he2 (e := e2) (fuel := fuel) (by rw [hw]; omega)
  have himp : importKeyring fuel turns m t (fileOf (m.bytes ++ t.bytes) rs) e1 e2 k = .ok (true, some f'.content) := by
    unfold importKeyring
    rw [h1, Res.ok_bind]
    simp only [Bool.false_eq_true, if_false]
    rw [hfile, h2, Res.ok_bind]
  rw [hw] at h3
  rcases h3 with ⟨h3, _⟩ | ⟨_, j, hj, h3⟩
  · exact ⟨(recordOf k).encode.length, Nat.le_refl _, by rw [himp, h3, List.take_length]; rfl⟩
  · exact ⟨j, hj, by rw [himp, h3]; rfl⟩

/-- **C45** Each of these files arises: the process can die after any number of bytes of the record. -/
theorem C45_crash_points (m t : StringInfo) (hh : Header m t) (rs : List Record) (hr : ∀ r ∈ rs, r.Fits) (hne : rs ≠ []) (e1 : IOEnv)
    (he1 : Quiet e1) (k : KeyringInfo) (hk : Importable k) (hid : lookup rs k.id.bytes = none) (j : Nat)
    (hj : j < (recordOf k).encode.length) :
    ∃ e2, Sane e2.sched ∧ ∃ N, ∀ fuel turns, N ≤ fuel → N ≤ turns →
      importKeyring fuel turns m t (fileOf (m.bytes ++ t.bytes) rs) e1 e2 k =
        .ok (true, some (ring (m.bytes ++ t.bytes) rs ++ (recordOf k).encode.take j)) := by
  have hw := written_eq (k := k) hk.new
  have hsane : ∀ n, Sane (ticks n) := by
    intro n
    induction n with
    | zero => trivial
    | succ n ih => exact ih
  refine ⟨⟨false, ticks (m.length + t.length + j)⟩, hsane _, 2 * (m.length + t.length + (recordOf k).encode.length) + 3 +
    e1.sched.length + (ring (m.bytes ++ t.bytes) rs).length + rs.length + 17, fun fuel turns hf ht => ?_⟩
  have hexp := C43_export m t hh rs hr e1 he1 k hk.ok.id fuel turns (by omega) (by omega)
  rw [hid] at hexp
  obtain ⟨k', h1, _⟩ := hexp
  have hfile : (fileOf (m.bytes ++ t.bytes) rs).getD [] = m.bytes ++ t.bytes ++ encodeAll rs := by
    unfold fileOf; rw [if_neg hne]; rfl
  obtain ⟨st, f', h2, _, h3⟩ := importWrites_crash_old (u := encodeAll rs) (j := j) (fuel := fuel) hk.ok hh (by rw [hw]; exact hj) (by rw [hw]; omega)
  unfold importKeyring
  rw [h1, Res.ok_bind]
  simp only [Bool.false_eq_true, if_false]
  rw [hfile, h2, Res.ok_bind, h3, hw]
  rfl

/-- **C45**, in part: after a crash at any point of the record, every key imported before is exported with its original value.
Missing: the interrupted key is not always absent or complete, and later imports are not always retrievable (see below). -/
theorem C45_earlier_partial (m t : StringInfo) (hh : Header m t) (rs : List Record) (hr : ∀ r ∈ rs, r.Fits) (r : Record) (j : Nat)
    (e : IOEnv) (he : Quiet e) (k : KeyringInfo) (hk : k.id.WF) (old : Record) (hold : lookup rs k.id.bytes = some old) (fuel turns : Nat)
    (hf : e.sched.length + (ring (m.bytes ++ t.bytes) rs).length + 16 < fuel) (ht : rs.length < turns) :
    ∃ k', exportKeyring fuel turns m t (some (ring (m.bytes ++ t.bytes) rs ++ r.encode.take j)) e k = .ok (true, k') ∧ HasKey k k' old :=
  export_found hh he hk hr hold hf ht

/-- **C45**, in part: if fewer than four bytes of the record reached the file, the interrupted key is absent; if all did, it is
complete. -/
theorem C45_interrupted_partial (m t : StringInfo) (hh : Header m t) (rs : List Record) (hr : ∀ r ∈ rs, r.Fits) (r : Record) (hrf : r.Fits)
    (e : IOEnv) (he : Quiet e) (k : KeyringInfo) (hk : k.id.WF) (hid : k.id.bytes = r.id) (hnew : lookup rs r.id = none) (fuel turns : Nat)
    (hf : e.sched.length + (ring (m.bytes ++ t.bytes) rs).length + r.encode.length + 16 < fuel) (ht : rs.length + 1 < turns) :
    (∀ j, j < 4 → ∃ k', exportKeyring fuel turns m t (some (ring (m.bytes ++ t.bytes) rs ++ r.encode.take j)) e k = .ok (false, k')) ∧
    (∃ k', exportKeyring fuel turns m t (some (ring (m.bytes ++ t.bytes) rs ++ r.encode)) e k = .ok (true, k') ∧ HasKey k k' r) := by
  refine ⟨fun j hj => ?_, ?_⟩
  · obtain ⟨f, c, l, h1⟩ := export_rest (u := r.encode.take j) hh he hk hr (by rw [hid]; exact hnew) (by omega) (by omega) (fuel := fuel) (turns := turns)
    rw [h1, show turns - rs.length = turns - rs.length - 1 + 1 by omega, exportLoop_end _ c (by simp; omega) (by omega)]
    exact ⟨_, rfl⟩
  · have hl : lookup (rs ++ [r]) k.id.bytes = some r := by
      unfold lookup at hnew ⊢
      rw [List.find?_append, hid, hnew]
      simp
    obtain ⟨k', h1, h2⟩ := export_found (u := []) (rs := rs ++ [r]) (fuel := fuel) (turns := turns) hh he hk
      (fun x hx => by rcases List.mem_append.mp hx with hx | hx; exact hr x hx; rw [List.mem_singleton] at hx; rw [hx]; exact hrf) hl
      (by unfold ring; rw [encodeAll_append]; unfold ring at hf; simp [encodeAll] at hf ⊢; omega) (by simp; omega)
    refine ⟨k', ?_, h2⟩
    rw [← h1]
    unfold ring
    rw [encodeAll_append]
    simp [encodeAll]

/-- **C45 is false**: a wrong nonce is returned as a success.  `ExportKeyringKey` (keyring.c:306-317) compares the id before it
looks at the status of the reads.  If the process died inside the nonce of the record, exporting the interrupted key returns
True with the part of the nonce that was written and zeros. -/
theorem C45_nonce_violated (m t : StringInfo) (hh : Header m t) (rs : List Record) (hr : ∀ r ∈ rs, r.Fits) (r : Record) (hrf : r.Fits)
    (e : IOEnv) (he : Quiet e) (k : KeyringInfo) (hk : k.id.WF) (hid : k.id.bytes = r.id) (hnew : lookup rs r.id = none) (j : Nat)
    (hj : r.encode.length ≤ j + r.nonce.length) (hj' : j < r.encode.length) (fuel turns : Nat)
    (hf : e.sched.length + (ring (m.bytes ++ t.bytes) rs).length + r.encode.length + 16 < fuel) (ht : rs.length < turns) :
    ∃ k', exportKeyring fuel turns m t (some (ring (m.bytes ++ t.bytes) rs ++ r.encode.take j)) e k = .ok (true, k') ∧
      k'.key.bytes = r.key ∧
      k'.nonce.bytes = r.nonce.take (j + r.nonce.length - r.encode.length) ++ List.replicate (r.encode.length - j) 0 := by
  have hel := encode_length r
  have hbl : r.nonce.length + 4 ≤ r.body.length := by unfold Record.body counted; simp [le_length]; omega
  obtain ⟨f, c, l, h1⟩ := export_rest (u := r.encode.take j) hh he hk hr (by rw [hid]; exact hnew) (by omega) (by omega) (fuel := fuel) (turns := turns)
  rw [h1, show turns - rs.length = turns - rs.length - 1 + 1 by omega]
  have htl : (r.encode.take j).length = j := by simp; omega
  rcases exportLoop_torn (fuel := fuel) (turns := turns - rs.length - 1) (r := r) (passedAll k rs) (by rw [passedAll_id]; exact hk) hrf c
    (List.take_prefix ..) (by omega) (by omega) (by omega) with ⟨h, _⟩ | ⟨_, h, _⟩ | ⟨w, k', _, h2, h3, h4, h5, h6⟩
  · rw [passedAll_id] at h; exact absurd hid h
  · omega
  · refine ⟨k', h5, h6.key, ?_⟩
    rw [h6.nonce]
    have hw : w = r.nonce.take w.length := List.prefix_iff_eq_take.mp h3
    have e1 : w.length = j + r.nonce.length - r.encode.length := by omega
    have e2 : r.nonce.length - w.length = r.encode.length - j := by omega
    rw [e2]
    conv => lhs; lhs; rw [hw, e1]

/-- **C45 is false**: after a crash that left four or more bytes of a record but not all of it, exporting any id that the ring
does not hold, and so importing any new key, aborts the program: the error path passes the destroyed file to `GetFilePath`, the
assertion of which fails (keyring.c:276-282, file.c:508).  The key ring never accepts another key. -/
theorem C45_import_violated (m t : StringInfo) (hh : Header m t) (rs : List Record) (hr : ∀ r ∈ rs, r.Fits) (r : Record) (hrf : r.Fits)
    (e : IOEnv) (he : Quiet e) (k : KeyringInfo) (hk : k.id.WF) (hid : k.id.bytes ≠ r.id) (hnew : lookup rs k.id.bytes = none) (j : Nat)
    (hj : 4 ≤ j) (hj' : j < r.encode.length) (fuel turns : Nat)
    (hf : e.sched.length + (ring (m.bytes ++ t.bytes) rs).length + r.encode.length + 16 < fuel) (ht : rs.length < turns) (e2 : IOEnv) :
    exportKeyring fuel turns m t (some (ring (m.bytes ++ t.bytes) rs ++ r.encode.take j)) e k = .ub ∧
    importKeyring fuel turns m t (some (ring (m.bytes ++ t.bytes) rs ++ r.encode.take j)) e e2 k = .ub := by
  have key : exportKeyring fuel turns m t (some (ring (m.bytes ++ t.bytes) rs ++ r.encode.take j)) e k = .ub := by
    obtain ⟨f, c, l, h1⟩ := export_rest (u := r.encode.take j) hh he hk hr hnew (by omega) (by omega) (fuel := fuel) (turns := turns)
    rw [h1, show turns - rs.length = turns - rs.length - 1 + 1 by omega]
    have htl : (r.encode.take j).length = j := by simp; omega
    rcases exportLoop_torn (fuel := fuel) (turns := turns - rs.length - 1) (r := r) (passedAll k rs) (by rw [passedAll_id]; exact hk) hrf c
      (List.take_prefix ..) (by omega) (by omega) (by omega) with ⟨_, h⟩ | ⟨h, _⟩ | ⟨_, _, h, _⟩
    · exact h
    · rw [passedAll_id] at h; exact absurd h hid
    · rw [passedAll_id] at h; exact absurd h hid
  refine ⟨key, ?_⟩
  unfold importKeyring
  rw [key]
  rfl

/-- **C45 is false**: after a crash that left one or two bytes of a record, importing a new key returns True, but the record is
appended after the stray bytes and exporting the key aborts the program. -/
theorem C45_lost_violated (m t : StringInfo) (hh : Header m t) (rs : List Record) (hr : ∀ r ∈ rs, r.Fits) (r : Record) (j : Nat)
    (hj : j = 1 ∨ j = 2) (e1 e2 e3 : IOEnv) (he1 : Quiet e1) (he2 : NoFail e2.sched) (he3 : Quiet e3) (k : KeyringInfo) (hk : Importable k)
    (hnew : lookup rs k.id.bytes = none) :
    ∃ N, ∀ fuel turns, N ≤ fuel → N ≤ turns → ∃ file,
      importKeyring fuel turns m t (some (ring (m.bytes ++ t.bytes) rs ++ r.encode.take j)) e1 e2 k = .ok (true, some file) ∧
      exportKeyring fuel turns m t (some file) e3 k = .ub := by
  have hw := written_eq (k := k) hk.new
  have lm := StringInfo.bytes_length hh.mWF
  have lt := StringInfo.bytes_length hh.tWF
  have hrl : m.length + t.length ≤ (ring (m.bytes ++ t.bytes) rs).length := by
    unfold ring; simp only [List.length_append]; omega
  refine ⟨e1.sched.length + e2.sched.length + e3.sched.length + (ring (m.bytes ++ t.bytes) rs).length + (recordOf k).encode.length +
    rs.length + 17, fun fuel turns hf ht => ⟨ring (m.bytes ++ t.bytes) rs ++ (r.encode.take j ++ (recordOf k).encode), ?_, ?_⟩⟩
  · obtain ⟨f, c, l, h1⟩ := export_rest (u := r.encode.take j) hh he1 hk.ok.id hr hnew (by omega) (by omega) (fuel := fuel) (turns := turns)
    rw [show turns - rs.length = turns - rs.length - 1 + 1 by omega, exportLoop_end _ c (by simp; omega) (by omega)] at h1
    obtain ⟨st, f', h2, h3⟩ := importWrites_old_full (u := encodeAll rs ++ r.encode.take j) hk.ok hh he2 (e := e2) (fuel := fuel) (by rw [hw]; omega)
    unfold importKeyring
    rw [h1, Res.ok_bind]
    simp only [Bool.false_eq_true, if_false, Option.getD_some]
    have : ring (m.bytes ++ t.bytes) rs ++ r.encode.take j = m.bytes ++ t.bytes ++ (encodeAll rs ++ r.encode.take j) := by
      unfold ring; rw [List.append_assoc]
    rw [this, h2, Res.ok_bind, h3, hw]
    unfold ring
    simp
  · obtain ⟨f, c, l, h1⟩ := export_rest (u := r.encode.take j ++ (recordOf k).encode) hh he3 hk.ok.id hr hnew (by omega) (by omega)
      (fuel := fuel) (turns := turns)
    rw [h1, show turns - rs.length = turns - rs.length - 1 + 1 by omega]
    have hm : mark = [0xab, 0xad, 0xac, 0xab] := by decide
    have hpre : ∃ v t', v < 2 ^ 32 ∧ BitVec.ofNat 64 v ≠ wizardSignature ∧ r.encode.take j ++ (recordOf k).encode = Hash.le 4 v ++ t' := by
      unfold Record.encode
      rw [hm]
      rcases hj with rfl | rfl
      · exact ⟨0xacadabab, 0xab :: (recordOf k).body, by decide, by decide, by
          rw [show Hash.le 4 0xacadabab = [0xab, 0xab, 0xad, 0xac] by decide]; rfl⟩
      · exact ⟨0xadabadab, [0xac, 0xab] ++ (recordOf k).body, by decide, by decide, by
          rw [show Hash.le 4 0xadabadab = [0xab, 0xad, 0xab, 0xad] by decide]; rfl⟩
    obtain ⟨v, t', hv, hs, hpre⟩ := hpre
    rw [hpre] at c
    rcases read32_pre (fuel := fuel) 0 c hv (List.prefix_refl _) (by omega) with ⟨u', f', _, _, h2, _⟩ | ⟨f', h2, _⟩
    · rw [exportLoop, h2, Res.ok_bind]
      simp only [Bool.true_eq_false, if_false]
      rw [if_pos hs]
    · rw [List.length_append, le_length] at h2; omega

/-- **C45 is false**: if the process died before the header of a new key ring was complete, in particular right after the file
was created, every export from it and every import into it aborts the program. -/
theorem C45_header_violated (m t : StringInfo) (hh : Header m t) (r : Record) (j : Nat) (hj : j < m.length + t.length)
    (e e2 : IOEnv) (he : Quiet e) (k : KeyringInfo) (fuel turns : Nat) (hf : e.sched.length + m.length + t.length + 16 < fuel) :
    exportKeyring fuel turns m t (some ((m.bytes ++ t.bytes ++ r.encode).take j)) e k = .ub ∧
    importKeyring fuel turns m t (some ((m.bytes ++ t.bytes ++ r.encode).take j)) e e2 k = .ub := by
  have lm := StringInfo.bytes_length hh.mWF
  have lt := StringInfo.bytes_length hh.tWF
  have key : exportKeyring fuel turns m t (some ((m.bytes ++ t.bytes ++ r.encode).take j)) e k = .ub := by
    obtain ⟨c, hc⟩ : ∃ c, c = (m.bytes ++ t.bytes ++ r.encode).take j := ⟨_, rfl⟩
    rw [← hc]
    have hcl : c.length = j := by rw [hc]; simp; omega
    have hcalm : Calm (openFile c e) c := ⟨he.sched, he.eintr, by simp [FileIO.rest, openFile]⟩
    unfold exportKeyring
    simp only []
    by_cases h : j < m.length
    · rw [expectBytes_short hh.mWF hh.mLt hcalm (by omega) (by simp only [openFile]; omega)]
      rfl
    · have hc2 : c = m.bytes ++ c.drop m.length := by
        have : c.take m.length = m.bytes := by
          rw [hc, List.take_take, Nat.min_eq_left (by omega), List.append_assoc, ← lm, List.take_left' rfl]
        rw [← this, List.take_append_drop]
      rw [hc2] at hcalm
      have hcalm' : Calm (openFile c e) (m.bytes ++ c.drop m.length) := by rw [← hc2] at hcalm ⊢; exact hcalm
      obtain ⟨f', h1, h2⟩ := expectBytes_ok (fuel := fuel) hh.mWF hh.mLt hcalm' (by simp only [openFile]; omega)
      rw [h1, Res.ok_bind, expectBytes_short hh.tWF hh.tLt h2.calm (by rw [List.length_drop]; omega) (by have := h2.sched; simp only [openFile] at this; omega)]
      rfl
  refine ⟨key, ?_⟩
  unfold importKeyring
  rw [key]
  rfl

/-- **C45** These files arise as well. -/
theorem C45_header_points (m t : StringInfo) (hh : Header m t) (e1 : IOEnv) (k : KeyringInfo) (hk : Importable k) (j : Nat)
    (hj : j < m.length + t.length + (recordOf k).encode.length) :
    ∃ e2, ∃ N, ∀ fuel turns, N ≤ fuel →
      importKeyring fuel turns m t none e1 e2 k = .ok (true, some ((m.bytes ++ t.bytes ++ (recordOf k).encode).take j)) := by
  have hw := written_eq (k := k) hk.new
  have lm := StringInfo.bytes_length hh.mWF
  have lt := StringInfo.bytes_length hh.tWF
  refine ⟨⟨false, ticks j⟩, 2 * (m.length + t.length + (recordOf k).encode.length) + 3, fun fuel turns hf => ?_⟩
  obtain ⟨st, f', h2, _, h3⟩ := importWrites_crash_new (j := j) (fuel := fuel) hk.ok hh (by rw [hw]; simp; omega) (by rw [hw]; omega)
  unfold importKeyring exportKeyring
  simp only [Res.ok_bind, Bool.false_eq_true, if_false, Option.getD_none]
  rw [h2, Res.ok_bind, h3, hw]

/-! ### C78 -/

/-- A key of protocol 1.0 imported. -/
theorem protocol_corrupt (m t : StringInfo) (hh : Header m t) (rs : List Record) (hr : ∀ r ∈ rs, r.Fits) (e1 e2 : IOEnv)
    (he1 : Quiet e1) (he2 : NoFail e2.sched) (hne : rs ≠ []) (k : KeyringInfo) (hk : KeyOK k)
    (hold : k.major = 1 ∧ k.minor = 0) (hnew : lookup rs k.id.bytes = none)
    (hts : k.id.length + k.key.length + k.nonce.length + 32 < k.timestamp.toNat % 2 ^ 32) (fuel turns : Nat)
    (hf : e1.sched.length + e2.sched.length + (ring (m.bytes ++ t.bytes) rs).length + (written k).length + 2 ^ 32 + 100 < fuel)
    (ht : rs.length < turns) :
    ∃ file, importKeyring fuel turns m t (fileOf (m.bytes ++ t.bytes) rs) e1 e2 k = .ok (true, some file) ∧
      ∀ (e3 : IOEnv) (k' : KeyringInfo), Quiet e3 → e3.sched.length + (ring (m.bytes ++ t.bytes) rs).length + (written k).length + 2 ^ 32 + 100 < fuel →
        k'.id.WF → lookup rs k'.id.bytes = none → exportKeyring fuel turns m t (some file) e3 k' = .ub := by
  have lm := StringInfo.bytes_length hh.mWF
  have lt := StringInfo.bytes_length hh.tWF
  have li := StringInfo.bytes_length hk.id
  have lk := StringInfo.bytes_length hk.key
  have ln := StringInfo.bytes_length hk.nonce
  have hrl : m.length + t.length ≤ (ring (m.bytes ++ t.bytes) rs).length := by
    unfold ring; simp only [List.length_append]; omega
  -- what follows the low half of the time stamp
  obtain ⟨rest, hrest⟩ : ∃ rest, rest = Hash.le 4 (k.timestamp.toNat / 2 ^ 32) ++
    (counted k.id.bytes ++ (counted k.key.bytes ++ counted k.nonce.bytes)) := ⟨_, rfl⟩
  have hrestl : rest.length = 16 + k.id.length + k.key.length + k.nonce.length := by
    rw [hrest]; unfold counted; simp only [List.length_append, le_length]; omega
  -- the record as the reader sees it
  obtain ⟨n, hn⟩ : ∃ n, n = k.timestamp.toNat % 2 ^ 32 := ⟨_, rfl⟩
  let r : Record := ⟨rest ++ List.replicate (n - rest.length) 0, [], [], 1, 0, 0⟩
  have hold' : r.Old := ⟨rfl, rfl⟩
  have hidl : r.id.length = n := by show (rest ++ List.replicate (n - rest.length) 0).length = n; simp; omega
  have hfits : r.Fits := ⟨by rw [hidl, hn]; omega, by show 0 < _; decide, by show 0 < _; decide, fun _ => by show 0 < _; decide⟩
  have h8 : Hash.le 8 k.timestamp.toNat = Hash.le 4 n ++ Hash.le 4 (k.timestamp.toNat / 2 ^ 32) := by
    rw [hn]
    unfold Hash.le
    rw [show List.range 8 = List.range (4 + 4) from rfl, List.range_add, List.map_append, List.map_map]
    congr 1
    · apply List.map_congr_left
      intro i hi
      rw [List.mem_range] at hi
      apply BitVec.eq_of_toNat_eq
      rw [BitVec.toNat_ofNat, BitVec.toNat_ofNat]
      rcases (show i = 0 ∨ i = 1 ∨ i = 2 ∨ i = 3 by omega) with rfl | rfl | rfl | rfl <;> omega
    · apply List.map_congr_left
      intro i hi
      rw [List.mem_range] at hi
      simp only [Function.comp]
      rw [Nat.div_div_eq_div_mul]
      congr 2
      rw [show (2 : Nat) ^ 32 = 256 ^ 4 by decide, ← Nat.pow_add]
  have hstamp : r.stamp = Hash.le 4 0 ++ (Hash.le 2 1 ++ Hash.le 2 0) := by
    unfold Record.stamp; rw [if_pos hold']; rfl
  have hwr : written k = mark ++ (r.stamp ++ (Hash.le 4 n ++ rest)) := by
    unfold written
    rw [hstamp, h8, hold.1, hold.2, hrest]
    simp
  have hn32 : n < 2 ^ 32 := by rw [hn]; exact Nat.mod_lt _ (by decide)
  have hbl : r.body.length = r.stamp.length + (4 + n + 8) := by
    unfold Record.body counted
    simp only [List.length_append, le_length, hidl]
    rfl
  have hsl : r.stamp.length = 8 := by rw [hstamp]; simp only [List.length_append, le_length]
  refine ⟨ring (m.bytes ++ t.bytes) rs ++ written k, ?_, ?_⟩
  · have hexp := C43_export m t hh rs hr e1 he1 k hk.id fuel turns (by omega) (by omega)
    rw [hnew] at hexp
    obtain ⟨k', h1, _⟩ := hexp
    have hfile : (fileOf (m.bytes ++ t.bytes) rs).getD [] = m.bytes ++ t.bytes ++ encodeAll rs := by
      unfold fileOf; rw [if_neg hne]; rfl
    obtain ⟨st, f', h2, h3⟩ := importWrites_old_full (u := encodeAll rs) hk hh he2 (e := e2) (fuel := fuel) (by omega)
    unfold importKeyring
    rw [h1, Res.ok_bind]
    simp only [Bool.false_eq_true, if_false]
    rw [hfile, h2, Res.ok_bind, h3]
    rfl
  · intro e3 k' he3 hf3 hk' hnew'
    obtain ⟨f, c, l, h1⟩ := export_rest (u := written k) hh he3 hk' hr hnew' (by omega) (by omega) (fuel := fuel) (turns := turns)
    rw [h1, show turns - rs.length = turns - rs.length - 1 + 1 by omega]
    rw [hwr] at c
    obtain ⟨f1, l1, e1⟩ := exportLoop_mark (fuel := fuel) (turns := turns - rs.length - 1) (passedAll k' rs) c (by omega)
    rw [e1]
    have hpre : r.stamp ++ (Hash.le 4 n ++ rest) <+: r.body ++ [] := by
      refine ⟨List.replicate (n - rest.length) 0 ++ (counted r.key ++ counted r.nonce), ?_⟩
      unfold Record.body
      rw [show counted r.id = Hash.le 4 n ++ (rest ++ List.replicate (n - rest.length) 0) by unfold counted; rw [hidl]]
      simp
    have hul : (r.stamp ++ (Hash.le 4 n ++ rest)).length = r.stamp.length + 4 + rest.length := by
      simp only [List.length_append, le_length]; omega
    rcases exportRecord_pre (fuel := fuel) (passedAll k' rs) (by rw [passedAll_id]; exact hk') l1.calm hfits hpre (by have := l1.sched; omega) with
      ⟨u', f', _, h2, _⟩ | ⟨w, _, hl, _⟩ | ⟨_, h2⟩
    · have := congrArg List.length h2
      rw [hul, List.length_append] at this; omega
    · exact absurd hl (by show ¬ w.length < 0; omega)
    · rw [h2]; rfl

/-- **C78 is false**: `ImportKeyringKey` (keyring.c:487-489) writes the protocol of the object and always a time stamp of 64 bits,
but a record of protocol 1.0 is read without one.  An object gets protocol 1.0 when a record of an old key ring is exported
into it; imported from there into another key ring, the record is corrupt: exporting any id the ring did not hold before,
the one just imported included, aborts the program, if the low 32 bits of the time stamp exceed the size of the record. -/
theorem C78_protocol_violated (m t : StringInfo) (hh : Header m t) (rs : List Record) (hr : ∀ r ∈ rs, r.Fits) (e1 e2 e3 : IOEnv)
    (he1 : Quiet e1) (he2 : NoFail e2.sched) (he3 : Quiet e3) (hne : rs ≠ []) (k k' : KeyringInfo) (hk : KeyOK k)
    (hold : k.major = 1 ∧ k.minor = 0) (hnew : lookup rs k.id.bytes = none) (hk' : k'.id.WF) (hnew' : lookup rs k'.id.bytes = none)
    (hts : k.id.length + k.key.length + k.nonce.length + 32 < k.timestamp.toNat % 2 ^ 32) :
    ∃ N, ∀ fuel turns, N ≤ fuel → N ≤ turns → ∃ file,
      importKeyring fuel turns m t (fileOf (m.bytes ++ t.bytes) rs) e1 e2 k = .ok (true, some file) ∧
      exportKeyring fuel turns m t (some file) e3 k' = .ub := by
  refine ⟨e1.sched.length + e2.sched.length + e3.sched.length + (ring (m.bytes ++ t.bytes) rs).length + (written k).length + 2 ^ 32 + 101 + rs.length,
    fun fuel turns hf ht => ?_⟩
  obtain ⟨file, h1, h2⟩ := protocol_corrupt m t hh rs hr e1 e2 he1 he2 hne k hk hold hnew hts fuel turns (by omega) (by omega)
  exact ⟨file, h1, h2 e3 k' he3 (by omega) hk' hnew'⟩

/-! ### Concrete cases -/

/-- A string of the given bytes. -/
def strOf (b : List Byte) : StringInfo := ⟨b.length, b ++ List.replicate 128 0⟩

theorem strOf_wf (b : List Byte) : (strOf b).WF := by
  show b.length + 128 ≤ (b ++ List.replicate 128 (0 : Byte)).length
  simp

/-- An object of protocol 1.1 with the id `[i]`. -/
def objOf (i : Byte) : KeyringInfo := ⟨strOf [i], strOf [i, 7], strOf [9, 9, i], 1, 1, 1700000000⟩

theorem objOf_importable (i : Byte) : Importable (objOf i) :=
  ⟨⟨strOf_wf _, strOf_wf _, strOf_wf _, by show 1 < 2 ^ 32; decide, by show 2 < 2 ^ 32; decide, by show 3 < 2 ^ 32; decide⟩,
    by show ¬ ((1 : BitVec 16) = 1 ∧ (1 : BitVec 16) = 0); decide⟩

theorem header_example : Header (strOf [0x7f, 0x53]) (strOf [1, 2, 3]) :=
  ⟨strOf_wf _, strOf_wf _, by decide, by show 2 < 2 ^ 32; decide, by show 3 < 2 ^ 32; decide⟩

theorem quiet_example : Quiet ⟨false, [.short 1, .short 3]⟩ :=
  ⟨rfl, by intro e he; simp at he; rcases he with rfl | rfl <;> exact ⟨_, rfl⟩⟩

-- a history of three imports, one of them a second import of an id, with short and interrupted writes
example : GoodHistory [(objOf 1, ⟨false, [.short 1, .short 3]⟩, ⟨false, [.short 2, .intr]⟩), (objOf 2, ⟨false, []⟩, ⟨true, [.intr]⟩),
    (objOf 1, ⟨false, []⟩, ⟨false, []⟩)] := by
  intro x hx
  simp only [List.mem_cons, List.not_mem_nil, or_false] at hx
  rcases hx with rfl | rfl | rfl
  · exact ⟨objOf_importable 1, quiet_example, by intro e he; simp at he; rcases he with rfl | rfl; exact .inr ⟨_, rfl⟩; exact .inl rfl⟩
  · exact ⟨objOf_importable 2, ⟨rfl, fun e he => by simp at he⟩, by intro e he; simp at he; exact .inl he⟩
  · exact ⟨objOf_importable 1, ⟨rfl, fun e he => by simp at he⟩, by intro e he; simp at he⟩

-- what the ring of the first two of them looks like
example : ring [0x7f, 0x53, 1, 2, 3] [recordOf (objOf 1)] =
    [0x7f, 0x53, 1, 2, 3] ++ [0xab, 0xad, 0xac, 0xab] ++ [0, 0, 0, 0, 1, 0, 1, 0] ++ [0x00, 0xf1, 0x53, 0x65, 0, 0, 0, 0] ++
    [1, 0, 0, 0, 1] ++ [2, 0, 0, 0, 1, 7] ++ [3, 0, 0, 0, 9, 9, 1] := by decide

-- a ring, and a key it does not hold, for the crash theorems
example : [recordOf (objOf 1)] ≠ [] ∧ (∀ r ∈ [recordOf (objOf 1)], r.Fits) ∧ lookup [recordOf (objOf 1)] (objOf 2).id.bytes = none ∧
    (recordOf (objOf 2)).encode.length = 38 := by
  refine ⟨by simp, ?_, by decide, by decide⟩
  intro r hr
  rw [List.mem_singleton] at hr
  rw [hr]
  exact fits_of (objOf_importable 1).ok (objOf_importable 1).new

-- an object of protocol 1.0 whose time stamp exceeds the size of the record
example : ∃ k : KeyringInfo, KeyOK k ∧ (k.major = 1 ∧ k.minor = 0) ∧
    k.id.length + k.key.length + k.nonce.length + 32 < k.timestamp.toNat % 2 ^ 32 :=
  ⟨{ objOf 3 with minor := 0 }, ⟨strOf_wf _, strOf_wf _, strOf_wf _, by show 1 < 2 ^ 32; decide, by show 2 < 2 ^ 32; decide,
    by show 3 < 2 ^ 32; decide⟩, by decide, by decide⟩

end Wizard.Props
