import Verif.Lemmas.SecretMemory

/-! C177: the memory of secrets. -/
namespace Wizard.Props
open Wizard Wizard.Spec.SecretMemory Wizard.Lemmas.SecretMemory

namespace SecretMemory

/-- What is acquired is what the secret owns, the name of its passphrase, and what was there before. -/
structure Inv (base : List Nat) (s : SecretObj) (m : Mem) : Prop where
  perm : m.live.Perm (s.order ++ s.passphrase.toList ++ base)
  sound : Sound m

/-- What is there after a step. -/
def idAfter (id : Bool) : SecretOp → Bool
  | .setId _ => true
  | .newId _ => true
  | _ => id

def keyAfter (key : Bool) : SecretOp → Bool
  | .newKey _ => true
  | _ => key

def ringAfter (ring : Bool) : SecretOp → Bool
  | .ringKey => true
  | .found _ _ _ => true
  | _ => ring

/-- What holds of a step. -/
structure Stepped (base : List Nat) (op : SecretOp) (s : SecretObj) (m : Mem) (s' : SecretObj) (m' : Mem) : Prop where
  inv : Inv base s' m'
  grew : Grew m m'
  id : s'.id.isSome = idAfter s.id.isSome op
  key : s'.key.isSome = keyAfter s.key.isSome op
  ring : s'.ring.key.isSome = ringAfter s.ring.key.isSome op
  pass : (∀ name, op ≠ .setPassphrase name) → s'.passphrase = s.passphrase
  name : ∀ name, op = .setPassphrase name → ∃ p, s'.passphrase = some p ∧ m'.data p = name ∧ m.next ≤ p
  new : ∀ key, op = .newKey key → ∃ k, s'.key = some k ∧ m'.data k.datum = key
  content : content m' s' = expected (fun x => m.data x.datum) (content m s) op

theorem some_of {α : Type} {o : Option α} {b : Bool} (h : o.isSome = b) (hb : b = true) : ∃ x, o = some x := Option.isSome_iff_exists.1 (h.trans hb)

macro "perm_count" : tactic => `(tactic| (rw [List.perm_iff_count]; intro a; simp only [SecretObj.order, RingObj.order, List.count_append] <;> omega))

theorem put_text {rest : List Nat} {bytes : List Byte} {m : Mem} {r : Option StrObj × Mem} (h : Put rest bytes m r) : (r.1.map fun x => r.2.data x.datum) = some bytes := by
  obtain ⟨x, hx, hd, -⟩ := h.some
  rw [hx, Option.map_some, hd]

/-- What no step touches is still there. -/
theorem same_text {base : List Nat} {s : SecretObj} {m m' : Mem} (h : Inv base s m) (g : Grew m m') : content m' s = content m s := by
  have hb : ∀ b ∈ s.order, m'.data b = m.data b := fun b hb => g.2 b (h.sound.2 b (h.perm.mem_iff.2 (List.mem_append_left _ (List.mem_append_left _ hb))))
  have hs : ∀ o : Option StrObj, (∀ b ∈ strOrder o, b ∈ s.order) → (o.map fun x => m'.data x.datum) = o.map fun x => m.data x.datum := by
    intro o ho
    cases o with
    | none => rfl
    | some x => rw [Option.map_some, Option.map_some, hb x.datum (ho _ (by simp [strOrder, StrObj.order]))]
  have hp : s.ring.path.map m'.data = s.ring.path.map m.data := by
    cases hpath : s.ring.path with
    | none => rfl
    | some p => rw [Option.map_some, Option.map_some, hb p (by simp [SecretObj.order, RingObj.order, hpath])]
  rw [content, content, hs s.id (fun b h => by simp [SecretObj.order, h]), hs s.key (fun b h => by simp [SecretObj.order, h]), hp,
    hs s.ring.id (fun b h => by simp [SecretObj.order, RingObj.order, h]), hs s.ring.key (fun b h => by simp [SecretObj.order, RingObj.order, h]),
    hs s.ring.nonce (fun b h => by simp [SecretObj.order, RingObj.order, h]), hb s.nonce.datum (by simp [SecretObj.order, StrObj.order])]

/-- Contents differ in what was set. -/
theorem content_ext {c d : Content} (h1 : c.id = d.id) (h2 : c.key = d.key) (h3 : c.nonce = d.nonce) (h4 : c.ringPath = d.ringPath) (h5 : c.ringId = d.ringId)
    (h6 : c.ringKey = d.ringKey) (h7 : c.ringNonce = d.ringNonce) : c = d := by
  cases c; cases d; simp_all

theorem step_ok (base : List Nat) (op : SecretOp) (s : SecretObj) (m : Mem) (h : Inv base s m)
    (hsrc : ∀ source, op = .setId source → ∃ x, source = some x ∧ x.self ∈ base ∧ x.datum ∈ base)
    (hid : op = .ringId → s.id.isSome = true) (hkey : op = .ringKey → s.key.isSome = true) (hring : ∀ key, op = .sealKey key → s.ring.key.isSome = true) :
    ∃ s' m', secretStep op s m = .ok (s', m') ∧ Stepped base op s m s' m' := by
  have strmem : ∀ (x : StrObj), x.self ∈ x.order ∧ x.datum ∈ x.order := fun x => by simp [StrObj.order]
  cases op with
  | setId source =>
    obtain ⟨x, rfl, ha, hb⟩ := hsrc _ rfl
    obtain ⟨r, hr, hp⟩ := replace_put s.id x
      (s.random.order ++ s.hmac.order ++ s.cipher.order ++ s.ring.order ++ s.nonce.order ++ strOrder s.key ++ [s.self] ++ s.passphrase.toList ++ base) m h.sound
      (h.perm.trans (by perm_count)) (List.mem_append_right _ ha) (List.mem_append_right _ hb)
    obtain ⟨y, hy, -⟩ := hp.some
    refine ⟨{ s with id := r.1 }, r.2, by show (replaceStr s.id (some x) m).bind _ = _; rw [hr]; rfl, ⟨⟨hp.perm.trans (by perm_count), hp.sound⟩, hp.grew, ?_, rfl, rfl, fun _ => rfl, nofun, nofun, by have st0 := same_text h (hp.grew); exact content_ext (put_text hp) (congrArg Content.key st0 : _) (congrArg Content.nonce st0 : _) (congrArg Content.ringPath st0 : _) (congrArg Content.ringId st0 : _) (congrArg Content.ringKey st0 : _) (congrArg Content.ringNonce st0 : _)⟩⟩
    show r.1.isSome = true
    rw [hy]; rfl
  | setPassphrase name =>
    obtain ⟨m1, h1, h2, h3, h4, h5⟩ := relinquish_all s.passphrase.toList (s.order ++ base) m h.sound (h.perm.trans (by perm_count))
    have g := got_acquire name h3
    refine ⟨{ s with passphrase := some (memAcquire name m1).1 }, (memAcquire name m1).2, by show (memRelinquishAll s.passphrase.toList m).bind _ = _; rw [h1]; rfl, ⟨⟨?_, g.sound⟩, ?_, rfl, rfl, rfl, fun hn => absurd rfl (hn name), ?_, nofun, ?_⟩⟩
    · refine g.perm.trans ((List.Perm.append_left _ h2).trans ?_)
      show ([(memAcquire name m1).1] ++ (s.order ++ base)).Perm (s.order ++ [(memAcquire name m1).1] ++ base)
      perm_count
    · exact ⟨h4 ▸ g.grew.1, fun b hb => (g.grew.2 b (h4 ▸ hb)).trans (by rw [h5])⟩
    · rintro n ⟨⟩
      exact ⟨_, rfl, if_pos rfl, by show m.next ≤ m1.next; rw [h4]; exact Nat.le_refl _⟩
    · exact same_text (s := s) h (m' := (memAcquire name m1).2) ⟨h4 ▸ g.grew.1, fun b hb => (g.grew.2 b (h4 ▸ hb)).trans (by rw [h5])⟩
  | newKey key =>
    obtain ⟨r, hr, hp⟩ := renew_put s.key key
      (s.random.order ++ s.hmac.order ++ s.cipher.order ++ s.ring.order ++ s.nonce.order ++ strOrder s.id ++ [s.self] ++ s.passphrase.toList ++ base) m h.sound
      (h.perm.trans (by perm_count))
    obtain ⟨y, hy, hd, -⟩ := hp.some
    refine ⟨{ s with key := r.1 }, r.2, by show (renewStr s.key key m).bind _ = _; rw [hr]; rfl, ⟨⟨hp.perm.trans (by perm_count), hp.sound⟩, hp.grew, rfl, ?_, rfl, fun _ => rfl, nofun, ?_, by have st0 := same_text h (hp.grew); exact content_ext (congrArg Content.id st0 : _) (put_text hp) (congrArg Content.nonce st0 : _) (congrArg Content.ringPath st0 : _) (congrArg Content.ringId st0 : _) (congrArg Content.ringKey st0 : _) (congrArg Content.ringNonce st0 : _)⟩⟩
    · show r.1.isSome = true
      rw [hy]; rfl
    · rintro k ⟨⟩
      exact ⟨y, hy, hd⟩
  | newId id =>
    obtain ⟨r, hr, hp⟩ := renew_put s.id id
      (s.random.order ++ s.hmac.order ++ s.cipher.order ++ s.ring.order ++ s.nonce.order ++ strOrder s.key ++ [s.self] ++ s.passphrase.toList ++ base) m h.sound
      (h.perm.trans (by perm_count))
    obtain ⟨y, hy, -⟩ := hp.some
    refine ⟨{ s with id := r.1 }, r.2, by show (renewStr s.id id m).bind _ = _; rw [hr]; rfl, ⟨⟨hp.perm.trans (by perm_count), hp.sound⟩, hp.grew, ?_, rfl, rfl, fun _ => rfl, nofun, nofun, by have st0 := same_text h (hp.grew); exact content_ext (put_text hp) (congrArg Content.key st0 : _) (congrArg Content.nonce st0 : _) (congrArg Content.ringPath st0 : _) (congrArg Content.ringId st0 : _) (congrArg Content.ringKey st0 : _) (congrArg Content.ringNonce st0 : _)⟩⟩
    show r.1.isSome = true
    rw [hy]; rfl
  | ringId =>
    obtain ⟨x, hx⟩ := some_of rfl (hid rfl)
    obtain ⟨r, hr, hp⟩ := replace_put s.ring.id x
      (strOrder s.id ++ (s.random.order ++ s.hmac.order ++ s.cipher.order ++ (strOrder s.ring.nonce ++ strOrder s.ring.key ++ s.ring.path.toList ++ [s.ring.self]) ++ s.nonce.order ++
        strOrder s.key ++ [s.self] ++ s.passphrase.toList ++ base)) m h.sound
      (h.perm.trans (by perm_count)) (List.mem_append_left _ (by rw [hx]; exact (strmem x).1)) (List.mem_append_left _ (by rw [hx]; exact (strmem x).2))
    refine ⟨{ s with ring := { s.ring with id := r.1 } }, r.2, by show (replaceStr s.ring.id s.id m).bind _ = _; rw [hx, hr]; rfl, ⟨⟨hp.perm.trans (by perm_count), hp.sound⟩, hp.grew, rfl, rfl, rfl, fun _ => rfl, nofun, nofun, by have st0 := same_text h (hp.grew); exact content_ext (congrArg Content.id st0 : _) (congrArg Content.key st0 : _) (congrArg Content.nonce st0 : _) (congrArg Content.ringPath st0 : _) ((put_text hp).trans (by show _ = s.id.map _; rw [hx]; rfl)) (congrArg Content.ringKey st0 : _) (congrArg Content.ringNonce st0 : _)⟩⟩
  | ringKey =>
    obtain ⟨x, hx⟩ := some_of rfl (hkey rfl)
    obtain ⟨r, hr, hp⟩ := replace_put s.ring.key x
      (strOrder s.key ++ (s.random.order ++ s.hmac.order ++ s.cipher.order ++ (strOrder s.ring.nonce ++ strOrder s.ring.id ++ s.ring.path.toList ++ [s.ring.self]) ++ s.nonce.order ++
        strOrder s.id ++ [s.self] ++ s.passphrase.toList ++ base)) m h.sound
      (h.perm.trans (by perm_count)) (List.mem_append_left _ (by rw [hx]; exact (strmem x).1)) (List.mem_append_left _ (by rw [hx]; exact (strmem x).2))
    obtain ⟨y, hy, -⟩ := hp.some
    refine ⟨{ s with ring := { s.ring with key := r.1 } }, r.2, by show (replaceStr s.ring.key s.key m).bind _ = _; rw [hx, hr]; rfl, ⟨⟨hp.perm.trans (by perm_count), hp.sound⟩, hp.grew, rfl, rfl, ?_, fun _ => rfl, nofun, nofun, by have st0 := same_text h (hp.grew); exact content_ext (congrArg Content.id st0 : _) (congrArg Content.key st0 : _) (congrArg Content.nonce st0 : _) (congrArg Content.ringPath st0 : _) (congrArg Content.ringId st0 : _) ((put_text hp).trans (by show _ = s.key.map _; rw [hx]; rfl)) (congrArg Content.ringNonce st0 : _)⟩⟩
    show r.1.isSome = true
    rw [hy]; rfl
  | ringNonce =>
    obtain ⟨r, hr, hp⟩ := replace_put s.ring.nonce s.nonce
      (s.nonce.order ++ (s.random.order ++ s.hmac.order ++ s.cipher.order ++ (strOrder s.ring.key ++ strOrder s.ring.id ++ s.ring.path.toList ++ [s.ring.self]) ++ strOrder s.key ++
        strOrder s.id ++ [s.self] ++ s.passphrase.toList ++ base)) m h.sound
      (h.perm.trans (by perm_count)) (List.mem_append_left _ (strmem _).1) (List.mem_append_left _ (strmem _).2)
    refine ⟨{ s with ring := { s.ring with nonce := r.1 } }, r.2, by show (replaceStr s.ring.nonce (some s.nonce) m).bind _ = _; rw [hr]; rfl, ⟨⟨hp.perm.trans (by perm_count), hp.sound⟩, hp.grew, rfl, rfl, rfl, fun _ => rfl, nofun,
      nofun, by have st0 := same_text h (hp.grew); exact content_ext (congrArg Content.id st0 : _) (congrArg Content.key st0 : _) (congrArg Content.nonce st0 : _) (congrArg Content.ringPath st0 : _) (congrArg Content.ringId st0 : _) (congrArg Content.ringKey st0 : _) (put_text hp)⟩⟩
  | found id key nonce =>
    have gi := got_str id h.sound
    have gk := got_str key gi.sound
    have gn := got_str nonce gk.sound
    have g := got_trans (got_trans gi gk (List.Perm.refl _)) gn (List.Perm.refl _)
    generalize hi' : acquireStr id m = i at *
    generalize hk' : acquireStr key i.2 = k at *
    generalize hn' : acquireStr nonce k.2 = n at *
    obtain ⟨r, hr, hp⟩ := replace_put s.ring.key k.1
      (k.1.order ++ (n.1.order ++ i.1.order ++ (s.random.order ++ s.hmac.order ++ s.cipher.order ++ (strOrder s.ring.nonce ++ strOrder s.ring.id ++ s.ring.path.toList ++ [s.ring.self]) ++
        s.nonce.order ++ strOrder s.key ++ strOrder s.id ++ [s.self] ++ s.passphrase.toList ++ base))) n.2 g.sound
      (g.perm.trans ((List.Perm.append_left _ h.perm).trans (by perm_count))) (List.mem_append_left _ (strmem _).1) (List.mem_append_left _ (strmem _).2)
    obtain ⟨q, hq, hp2⟩ := replace_put s.ring.nonce n.1
      (n.1.order ++ (k.1.order ++ i.1.order ++ (s.random.order ++ s.hmac.order ++ s.cipher.order ++ (strOrder r.1 ++ strOrder s.ring.id ++ s.ring.path.toList ++ [s.ring.self]) ++
        s.nonce.order ++ strOrder s.key ++ strOrder s.id ++ [s.self] ++ s.passphrase.toList ++ base))) r.2 hp.sound
      (hp.perm.trans (by perm_count)) (List.mem_append_left _ (strmem _).1) (List.mem_append_left _ (strmem _).2)
    obtain ⟨m', h1, h2, h3, h4, h5⟩ := relinquish_all (n.1.order ++ k.1.order ++ i.1.order)
      ((s.random.order ++ s.hmac.order ++ s.cipher.order ++ (strOrder q.1 ++ strOrder r.1 ++ strOrder s.ring.id ++ s.ring.path.toList ++ [s.ring.self]) ++
        s.nonce.order ++ strOrder s.key ++ strOrder s.id ++ [s.self] ++ s.passphrase.toList ++ base)) q.2 hp2.sound (hp2.perm.trans (by perm_count))
    obtain ⟨y, hy, -⟩ := hp.some
    have gg := grew_trans g.grew (grew_trans hp.grew hp2.grew)
    refine ⟨{ s with ring := { s.ring with key := r.1, nonce := q.1 } }, m', ?_, ⟨⟨h2.trans (by perm_count), h3⟩, ⟨h4 ▸ gg.1, fun b hb => by rw [h5]; exact gg.2 b hb⟩, rfl, rfl, ?_,
      fun _ => rfl, nofun, nofun, ?_⟩⟩
    · simp only [secretStep, hi', hk', hn']
      show (replaceStr s.ring.key (some k.1) n.2).bind _ = _
      rw [hr]
      show (replaceStr s.ring.nonce (some n.1) r.2).bind _ = _
      rw [hq]
      show (memRelinquishAll _ q.2).bind _ = _
      rw [h1]
      rfl
    · show r.1.isSome = true
      rw [hy]; rfl
    · have gm : Grew m m' := ⟨h4 ▸ gg.1, fun b hb => by rw [h5]; exact gg.2 b hb⟩
      have st0 := same_text h gm
      refine content_ext (congrArg Content.id st0 : _) (congrArg Content.key st0 : _) (congrArg Content.nonce st0 : _) (congrArg Content.ringPath st0 : _)
        (congrArg Content.ringId st0 : _) ?_ ?_
      · show (r.1.map fun x => m'.data x.datum) = some key
        obtain ⟨z, hz, hzd, -, hzl⟩ := hp.some
        rw [hz, h5, Option.map_some, hp2.grew.2 _ hzl, hzd]
        have hl : k.1.datum < k.2.next := gk.sound.2 _ (gk.perm.mem_iff.2 (List.mem_append_left _ (strmem _).2))
        rw [gn.grew.2 _ hl]
        have := str_data key i.2
        rw [hk'] at this
        rw [this]
      · show (q.1.map fun x => m'.data x.datum) = some nonce
        obtain ⟨z, hz, hzd, -, hzl⟩ := hp2.some
        rw [hz, h5, Option.map_some, hzd]
        have hl : n.1.datum < n.2.next := gn.sound.2 _ (gn.perm.mem_iff.2 (List.mem_append_left _ (strmem _).2))
        rw [hp.grew.2 _ hl]
        have := str_data nonce k.2
        rw [hn'] at this
        rw [this]
  | sealKey key =>
    obtain ⟨x, hx⟩ := some_of rfl (hring key rfl)
    have hxm : ∀ b ∈ x.order, b ∈ m.live := fun b hb => h.perm.mem_iff.2 (by simp [SecretObj.order, RingObj.order, hx, strOrder, hb])
    have hc := clone_ok x m (hxm _ (strmem x).1) (hxm _ (strmem x).2)
    have g := got_str (m.data x.datum) h.sound
    generalize hc' : acquireStr (m.data x.datum) m = c at *
    have hdat : m.next ≤ c.1.datum := g.new _ (strmem _).2
    obtain ⟨r, hr, hp⟩ := replace_put s.ring.key c.1
      (c.1.order ++ (s.random.order ++ s.hmac.order ++ s.cipher.order ++ (strOrder s.ring.nonce ++ strOrder s.ring.id ++ s.ring.path.toList ++ [s.ring.self]) ++
        s.nonce.order ++ strOrder s.key ++ strOrder s.id ++ [s.self] ++ s.passphrase.toList ++ base)) { c.2 with data := fun b => if b = c.1.datum then key else c.2.data b }
      g.sound (g.perm.trans ((List.Perm.append_left _ h.perm).trans (by perm_count))) (List.mem_append_left _ (strmem _).1) (List.mem_append_left _ (strmem _).2)
    obtain ⟨m', h1, h2, h3, h4, h5⟩ := relinquish_all c.1.order
      ((s.random.order ++ s.hmac.order ++ s.cipher.order ++ (strOrder s.ring.nonce ++ strOrder r.1 ++ strOrder s.ring.id ++ s.ring.path.toList ++ [s.ring.self]) ++
        s.nonce.order ++ strOrder s.key ++ strOrder s.id ++ [s.self] ++ s.passphrase.toList ++ base)) r.2 hp.sound (hp.perm.trans (by perm_count))
    obtain ⟨y, hy, -⟩ := hp.some
    refine ⟨{ s with ring := { s.ring with key := r.1 } }, m', ?_, ⟨⟨h2.trans (by perm_count), h3⟩, ⟨?_, fun b hb => ?_⟩, rfl, rfl, ?_, fun _ => rfl, nofun, nofun, ?_⟩⟩
    · show (cloneStr s.ring.key m).bind _ = _
      rw [hx, hc]
      rw [hx] at hr
      show (replaceStr (some x) (some c.1) _).bind _ = _
      rw [hr]
      show (memRelinquishAll _ r.2).bind _ = _
      rw [h1]
      rfl
    · rw [h4]; exact Nat.le_trans g.grew.1 hp.grew.1
    · rw [h5, hp.grew.2 b (Nat.lt_of_lt_of_le hb g.grew.1)]
      show (if b = c.1.datum then key else c.2.data b) = _
      rw [if_neg (by omega)]
      exact g.grew.2 b hb
    · show r.1.isSome = s.ring.key.isSome
      rw [hy, hx]; rfl
    · have gm : Grew m m' := by
        refine ⟨by rw [h4]; exact Nat.le_trans g.grew.1 hp.grew.1, fun b hb => ?_⟩
        rw [h5, hp.grew.2 b (Nat.lt_of_lt_of_le hb g.grew.1)]
        show (if b = c.1.datum then key else c.2.data b) = _
        rw [if_neg (by omega)]
        exact g.grew.2 b hb
      have st0 := same_text h gm
      refine content_ext (congrArg Content.id st0 : _) (congrArg Content.key st0 : _) (congrArg Content.nonce st0 : _) (congrArg Content.ringPath st0 : _)
        (congrArg Content.ringId st0 : _) ?_ (congrArg Content.ringNonce st0 : _)
      show (r.1.map fun x => m'.data x.datum) = some key
      rw [h5, put_text hp]
      exact congrArg some (if_pos rfl)

/-- What holds of a history. -/
structure Ran (base : List Nat) (ops : List SecretOp) (s : SecretObj) (m : Mem) (s' : SecretObj) (m' : Mem) : Prop where
  inv : Inv base s' m'
  grew : Grew m m'
  pass : lastName ops = none → s'.passphrase = s.passphrase
  name : ∀ name, lastName ops = some name → ∃ p, s'.passphrase = some p ∧ m'.data p = name
  old : ∀ b, b < m.next → s.passphrase ≠ some b → s'.passphrase ≠ some b
  kept : ∀ key, SecretOp.newKey key ∈ ops → ∃ b, b < m'.next ∧ m'.data b = key ∧ b ∉ base ∧ s'.passphrase ≠ some b
  id : (∃ source, SecretOp.setId source ∈ ops) → s'.id.isSome = true
  content : ∀ text, (∀ x : StrObj, x.datum ∈ base → text x = m.data x.datum) → content m' s' = ops.foldl (expected text) (content m s)

theorem id_stays {base : List Nat} {op : SecretOp} {s s' : SecretObj} {m m' : Mem} (h : Stepped base op s m s' m') (hid : s.id.isSome = true) : s'.id.isSome = true := by
  rw [h.id]; cases op <;> simp [idAfter, hid]

theorem run_ok (base : List Nat) (ops : List SecretOp) (s : SecretObj) (m : Mem) (h : Inv base s m)
    (hsrc : ∀ source, SecretOp.setId source ∈ ops → ∃ x, source = some x ∧ x.self ∈ base ∧ x.datum ∈ base)
    (ho : Ordered s.id.isSome s.key.isSome s.ring.key.isSome ops) :
    ∃ s' m', secretRun ops s m = .ok (s', m') ∧ Ran base ops s m s' m' ∧ (s.id.isSome = true → s'.id.isSome = true) := by
  induction ops generalizing s m with
  | nil =>
    exact ⟨s, m, rfl, ⟨h, grew_refl m, fun _ => rfl, nofun, fun _ _ hb => hb, nofun, nofun, fun _ _ => rfl⟩, fun h => h⟩
  | cons op ops ih =>
    have hsrc0 : ∀ source, op = .setId source → ∃ x, source = some x ∧ x.self ∈ base ∧ x.datum ∈ base := fun source hs => hsrc source (hs ▸ List.mem_cons_self)
    obtain ⟨s1, m1, h1, st⟩ := step_ok base op s m h hsrc0
      (by rintro rfl; exact ho.1) (by rintro rfl; exact ho.1) (by rintro key rfl; exact ho.1)
    have ho1 : Ordered s1.id.isSome s1.key.isSome s1.ring.key.isSome ops := by
      rw [st.id, st.key, st.ring]
      cases op <;> first | exact ho | exact ho.2
    obtain ⟨s2, m2, h2, rn, hi⟩ := ih s1 m1 st.inv (fun source hs => hsrc source (List.mem_cons_of_mem _ hs)) ho1
    have hpm : ∀ p, s1.passphrase = some p → p < m1.next := fun p hp => st.inv.sound.2 p (st.inv.perm.mem_iff.2 (by simp [hp]))
    refine ⟨s2, m2, by rw [secretRun, h1]; exact h2, ⟨rn.inv, grew_trans st.grew rn.grew, ?_, ?_, ?_, ?_, ?_, ?_⟩, fun hs => hi (id_stays st hs)⟩
    · intro hl
      have hne : ∀ name, op ≠ .setPassphrase name := by
        rintro name rfl
        rw [lastName] at hl
        cases hln : lastName ops <;> simp [hln] at hl
      have hl' : lastName ops = none := by
        cases op <;> first | exact hl | exact absurd rfl (hne _)
      exact (rn.pass hl').trans (st.pass hne)
    · intro name hl
      cases hln : lastName ops with
      | some name' =>
        have : name' = name := by
          cases op <;> simp only [lastName, hln, Option.orElse] at hl <;> exact Option.some.inj hl
        exact this ▸ rn.name name' hln
      | none =>
        have hop : op = .setPassphrase name := by
          cases op <;> simp [lastName, hln] at hl
          rw [hl]
        obtain ⟨p, hp, hd, -⟩ := st.name name hop
        exact ⟨p, (rn.pass hln).trans hp, (rn.grew.2 p (hpm p hp)).trans hd⟩
    · intro b hb hne
      refine rn.old b (Nat.lt_of_lt_of_le hb st.grew.1) ?_
      by_cases hn : ∃ name, op = .setPassphrase name
      · obtain ⟨name, hn⟩ := hn
        obtain ⟨p, hp, -, hge⟩ := st.name name hn
        rw [hp]
        intro he
        cases he
        exact absurd hb (Nat.not_lt.2 hge)
      · rw [st.pass (fun name he => hn ⟨name, he⟩)]; exact hne
    · intro key hk
      rcases List.mem_cons.1 hk with hk | hk
      · obtain ⟨k, hk1, hk2⟩ := st.new key hk.symm
        have hnd := nodup_of_perm st.inv.sound st.inv.perm
        have hko : k.datum ∈ s1.order := by simp [SecretObj.order, hk1, strOrder, StrObj.order]
        have hlt : k.datum < m1.next := st.inv.sound.2 _ (st.inv.perm.mem_iff.2 (List.mem_append_left _ (List.mem_append_left _ hko)))
        have hb : k.datum ∉ base := fun hb => (List.nodup_append.1 hnd).2.2 _ (List.mem_append_left _ hko) _ hb rfl
        have hpp : s1.passphrase ≠ some k.datum := fun hp =>
          (List.nodup_append.1 (List.nodup_append.1 hnd).1).2.2 _ hko _ (by simp [hp]) rfl
        exact ⟨k.datum, Nat.lt_of_lt_of_le hlt rn.grew.1, (rn.grew.2 _ hlt).trans hk2, hb, rn.old _ hlt hpp⟩
      · exact rn.kept key hk
    · rintro ⟨source, hs⟩
      rcases List.mem_cons.1 hs with hs | hs
      · exact hi (by rw [st.id, ← hs]; rfl)
      · exact rn.id ⟨source, hs⟩
    · intro text ht
      have hbase : ∀ b ∈ base, b < m.next := fun b hb => h.sound.2 b (h.perm.mem_iff.2 (List.mem_append_right _ hb))
      rw [rn.content text (fun x hx => (ht x hx).trans (st.grew.2 _ (hbase _ hx)).symm), List.foldl_cons, st.content]
      congr 1
      cases op with
      | setId source =>
        obtain ⟨x, rfl, -, hx⟩ := hsrc0 source rfl
        simp only [expected, Option.map_some, ht x hx]
      | _ => rfl

theorem start (path : Option (List Byte)) (nonce : List Byte) (m : Mem) (hm : Sound m) : Inv m.live (acquireSecret path nonce m).1 (acquireSecret path nonce m).2 := by
  have g := got_secret path nonce hm
  refine ⟨?_, g.sound⟩
  show (acquireSecret path nonce m).2.live.Perm ((acquireSecret path nonce m).1.order ++ [] ++ m.live)
  rw [List.append_nil]
  exact g.perm

/-- A program's whole use of a secret. -/
theorem life (path : Option (List Byte)) (nonce : List Byte) (m : Mem) (ops : List SecretOp) (hm : Sound m) (ha : Allowed m ops) :
    ∃ s' m' m'', secretRun ops (acquireSecret path nonce m).1 (acquireSecret path nonce m).2 = .ok (s', m') ∧ Ran m.live ops (acquireSecret path nonce m).1 (acquireSecret path nonce m).2 s' m' ∧
      secretLife path nonce ops m = .ok m'' ∧ m''.live.Perm (s'.passphrase.toList ++ m.live) ∧ m''.next = m'.next ∧ m''.data = m'.data := by
  have hr : (acquireSecret path nonce m).1.ring.key = none := by cases path <;> rfl
  obtain ⟨s', m', h1, rn, -⟩ := run_ok m.live ops _ _ (start path nonce m hm) (fun source hs => by
    obtain ⟨x, hx, hf⟩ := ha.1 source hs
    exact ⟨x, hx, hf⟩) (by rw [hr]; exact ha.2)
  obtain ⟨m'', h2, h3, -, h4, h5⟩ := relinquish_all s'.order (s'.passphrase.toList ++ m.live) m' rn.inv.sound (rn.inv.perm.trans (by rw [List.append_assoc]))
  refine ⟨s', m', m'', h1, rn, ?_, h3, h4, h5⟩
  rw [secretLife, h1]
  exact h2

end SecretMemory

open SecretMemory

/-- **C177** (partial: for programs that name no file with the passphrase).  Whatever a program does with a secret, all the memory that was acquired for it is given up, once, when it is
destroyed: what is acquired afterwards is what was acquired before, with the same contents, and nothing is given up that is not acquired and nothing read that was given up. -/
theorem C177_given_up_partial (path : Option (List Byte)) (nonce : List Byte) (m : Mem) (ops : List SecretOp) (hm : Sound m) (ha : Allowed m ops) (hn : lastName ops = none) :
    ∃ m', secretLife path nonce ops m = .ok m' ∧ SameBlocks m m' ∧ ∀ b ∈ m.live, m'.data b = m.data b := by
  obtain ⟨s', m1, m2, h1, rn, h2, h3, h4, h5⟩ := life path nonce m ops hm ha
  refine ⟨m2, h2, ?_, fun b hb => ?_⟩
  · have : s'.passphrase = none := rn.pass hn
    rw [this] at h3
    exact h3
  · rw [h5]
    exact (grew_trans (got_secret path nonce hm).grew rn.grew).2 b (hm.2 b hb)

/-- **C177**.  Whatever a program does with a secret, what it finds in it and in its key ring is what was set last, and none of it is memory that was given up. -/
theorem C177_holds (path : Option (List Byte)) (nonce : List Byte) (m : Mem) (ops : List SecretOp) (hm : Sound m) (ha : Allowed m ops) :
    ∃ s' m', secretRun ops (acquireSecret path nonce m).1 (acquireSecret path nonce m).2 = .ok (s', m') ∧
      content m' s' = ops.foldl (expected fun x => m.data x.datum) ⟨none, none, nonce, path, none, none, none⟩ ∧
      (∀ b ∈ s'.order, b ∈ m'.live) ∧ s'.order.Nodup := by
  obtain ⟨s', m1, m2, h1, rn, -⟩ := life path nonce m ops hm ha
  refine ⟨s', m1, h1, ?_, fun b hb => rn.inv.perm.mem_iff.2 (List.mem_append_left _ (List.mem_append_left _ hb)),
    (List.nodup_append.1 (List.nodup_append.1 (nodup_of_perm rn.inv.sound rn.inv.perm)).1).1⟩
  rw [rn.content (fun x => m.data x.datum) (fun x hx => ((got_secret path nonce hm).grew.2 _ (hm.2 _ hx)).symm)]
  congr 1
  have g1 := got_acquire [] hm
  have g2 := got_ring path g1.sound
  have g3 := got_cipher g2.sound
  have g4 := got_str nonce g3.sound
  have g5 := got_hmac g4.sound
  have g6 := got_random [] g5.sound
  have hn : (acquireSecret path nonce m).2.data (acquireSecret path nonce m).1.nonce.datum = nonce :=
    ((grew_trans g5.grew g6.grew).2 _ (g4.sound.2 _ (g4.perm.mem_iff.2 (List.mem_append_left _ List.mem_cons_self)))).trans (str_data nonce _)
  cases path with
  | none => exact content_ext rfl rfl hn rfl rfl rfl rfl
  | some p =>
    refine content_ext rfl rfl hn ?_ rfl rfl rfl
    refine congrArg some ?_
    exact ((grew_trans (grew_trans g3.grew g4.grew) (grew_trans g5.grew g6.grew)).2 _ (g2.sound.2 _ (g2.perm.mem_iff.2 (List.mem_append_left _ (by simp [acquireRing, RingObj.order,
      strOrder]))))).trans (if_pos rfl)

/-- **C177** (violated).  Once a program has named a file with the passphrase, destroying the secret leaves one block acquired for ever, which holds the name, whatever was done:
`DestroySecretInfo` does not destroy it. -/
theorem C177_passphrase_violated (path : Option (List Byte)) (nonce : List Byte) (m : Mem) (ops : List SecretOp) (hm : Sound m) (ha : Allowed m ops) (name : List Byte) (hn : lastName ops = some name) :
    ∃ m' p, secretLife path nonce ops m = .ok m' ∧ m'.live.Perm (p :: m.live) ∧ p ∉ m.live ∧ m'.data p = name ∧ ¬SameBlocks m m' := by
  obtain ⟨s', m1, m2, h1, rn, h2, h3, h4, h5⟩ := life path nonce m ops hm ha
  obtain ⟨p, hp, hd⟩ := rn.name name hn
  have h3' : m2.live.Perm (p :: m.live) := by rw [hp] at h3; exact h3
  have hnd := nodup_of_perm rn.inv.sound rn.inv.perm
  refine ⟨m2, p, h2, h3', ?_, by rw [h5]; exact hd, fun h => ?_⟩
  · exact fun hb => (List.nodup_append.1 hnd).2.2 _ (List.mem_append_right _ (by simp [hp])) _ hb rfl
  · have a := h3'.length_eq
    have b := h.length_eq
    rw [List.length_cons] at a
    omega

/-- **C177** (violated).  Every secret key that was generated or recovered remains in memory that was given up, whatever was done afterwards, although `DestroySecretInfo` and
`DestroyStringInfo` are said to zero the memory: whoever acquires that memory next finds it. -/
theorem C177_remains_violated (path : Option (List Byte)) (nonce : List Byte) (m : Mem) (ops : List SecretOp) (hm : Sound m) (ha : Allowed m ops) (key : List Byte) (hk : SecretOp.newKey key ∈ ops) :
    ∃ m' b, secretLife path nonce ops m = .ok m' ∧ b ∉ m'.live ∧ m'.data b = key := by
  obtain ⟨s', m1, m2, h1, rn, h2, h3, h4, h5⟩ := life path nonce m ops hm ha
  obtain ⟨b, hb1, hb2, hb3, hb4⟩ := rn.kept key hk
  refine ⟨m2, b, h2, fun hb => ?_, by rw [h5]; exact hb2⟩
  rcases List.mem_append.1 (h3.mem_iff.1 hb) with hb | hb
  · exact hb4 (by simpa using hb)
  · exact hb3 hb

/-- **C177** (violated).  To set the id of a secret to the id that it has, as `GetSecretId` gives it, reads memory that was given up, whatever was done before. -/
theorem C177_own_violated (path : Option (List Byte)) (nonce : List Byte) (m : Mem) (ops : List SecretOp) (hm : Sound m) (ha : Allowed m ops) (hid : ∃ source, SecretOp.setId source ∈ ops) :
    ∃ s' m', secretRun ops (acquireSecret path nonce m).1 (acquireSecret path nonce m).2 = .ok (s', m') ∧ s'.id.isSome = true ∧ secretStep (.setId s'.id) s' m' = .ub := by
  obtain ⟨s', m1, m2, h1, rn, -⟩ := life path nonce m ops hm ha
  have hs := rn.id hid
  refine ⟨s', m1, h1, hs, ?_⟩
  obtain ⟨x, hx⟩ := Option.isSome_iff_exists.1 hs
  have hu := replace_self x (s'.random.order ++ s'.hmac.order ++ s'.cipher.order ++ s'.ring.order ++ s'.nonce.order ++ strOrder s'.key ++ [s'.self] ++ s'.passphrase.toList ++ m.live) m1
    rn.inv.sound (rn.inv.perm.trans (by rw [show x.order = strOrder s'.id by rw [hx]; rfl]; perm_count))
  show (replaceStr s'.id s'.id m1).bind _ = _
  rw [hx, hu]
  rfl

/-- **C177** (violated).  A random generator is given up wholly, but of its seed of four words only the first is reset: the other three remain in memory that was given up. -/
theorem C177_seed_violated (m : Mem) (hm : Sound m) (a b c d : List Byte) (ha : a.length = 8) :
    ∃ m', destroyRandomObj (acquireRandomObj (a ++ b ++ c ++ d) m).1 (acquireRandomObj (a ++ b ++ c ++ d) m).2 = .ok m' ∧ SameBlocks m m' ∧
      m'.data (acquireRandomObj (a ++ b ++ c ++ d) m).1.self = List.replicate 8 0 ++ b ++ c ++ d := by
  generalize hseed : a ++ b ++ c ++ d = seed
  have g := got_random seed hm
  have hdat : (acquireRandomObj seed m).2.data (acquireRandomObj seed m).1.self = seed := by
    have h1 := got_acquire seed hm
    have h2 := got_hmac h1.sound
    have h3 := got_str [] h2.sound
    have h4 := got_str [] h3.sound
    have h5 := got_acquire [] h4.sound
    have gg := grew_trans (grew_trans (grew_trans h2.grew h3.grew) h4.grew) h5.grew
    exact (gg.2 m.next (Nat.lt_succ_self _)).trans (if_pos rfl)
  generalize acquireRandomObj seed m = r at *
  obtain ⟨m1, h1, h2, h3, h4, h5⟩ := relinquish_all (r.1.reservoir.order ++ r.1.nonce.order ++ r.1.hmac.order) ([r.1.semaphore] ++ [r.1.self] ++ m.live) r.2 g.sound
    (g.perm.trans (by rw [List.perm_iff_count]; intro e; simp only [RandomObj.order, List.count_append]; omega))
  obtain ⟨m2, k1, k2, k3, k4, k5⟩ := relinquish_all ([r.1.semaphore] ++ [r.1.self]) m.live (resetSeed r.1.self m1) h3 h2
  refine ⟨m2, ?_, k2, ?_⟩
  · rw [destroyRandomObj, h1]
    exact k1
  · rw [k5]
    show (if r.1.self = r.1.self then _ else _) = _
    rw [if_pos rfl, h5, hdat, ← hseed]
    have hl : min 8 (a ++ b ++ c ++ d).length = 8 := by simp only [List.length_append]; omega
    rw [hl]
    have : (a ++ b ++ c ++ d).drop 8 = b ++ c ++ d := by
      rw [List.append_assoc, List.append_assoc, ← ha, List.drop_left, List.append_assoc]
    rw [this]
    simp only [List.append_assoc]

/-- A program with one string of its own sets an id, names a file, generates a key, and destroys the secret. -/
example : ∃ m : Mem, ∃ ops, Sound m ∧ Allowed m ops ∧ lastName ops = none ∧ SecretOp.newKey [1, 2] ∈ ops ∧ ∃ source, SecretOp.setId source ∈ ops := by
  refine ⟨⟨2, [0, 1], fun _ => []⟩, [.setId (some ⟨0, 1⟩), .ringId, .found [3] [4] [5], .newKey [1, 2], .newId [6], .ringId, .ringKey, .ringNonce, .sealKey [7]], ?_, ⟨?_, ?_⟩, rfl, by simp,
    ⟨some ⟨0, 1⟩, by simp⟩⟩
  · exact ⟨by decide, by decide⟩
  · intro source hs
    simp at hs
    exact ⟨⟨0, 1⟩, hs, by simp [Foreign]⟩
  · simp [Ordered]

/-- The last name that was set counts. -/
example : lastName [.setPassphrase [1], .newKey [9], .setPassphrase [2], .ringKey] = some [2] := rfl

end Wizard.Props
