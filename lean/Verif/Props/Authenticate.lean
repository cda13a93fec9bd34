import Verif.Model.Authenticate
import Verif.Props.SecretMemory

/-! C177 for authenticate.c: an authentication is a secret and one block. -/
namespace Wizard.Props
open Wizard Wizard.Spec.SecretMemory Wizard.Lemmas.SecretMemory Wizard.Props.SecretMemory

namespace Authenticate

theorem run_secret (ops : List SecretOp) (a : AuthObj) (m : Mem) (h : a.method = .secret) :
    authRun ops a m = (secretRun ops a.handle m).bind fun r => .ok ({ a with handle := r.1 }, r.2) := by
  induction ops generalizing a m with
  | nil => rfl
  | cons op ops ih =>
    obtain ⟨self, method, handle⟩ := a
    cases h
    show ((secretStep op handle m).bind _).bind _ = ((secretStep op handle m).bind _).bind _
    cases secretStep op handle m with
    | ub => rfl
    | fatal => rfl
    | ok r => exact ih ⟨self, .secret, r.1⟩ r.2 rfl

theorem allowed_more {m : Mem} {ops : List SecretOp} (h : Allowed m ops) : Allowed (memAcquire [] m).2 ops := by
  refine ⟨fun source hs => ?_, h.2⟩
  obtain ⟨s, e, ha, hb⟩ := h.1 source hs
  exact ⟨s, e, List.mem_cons_of_mem _ ha, List.mem_cons_of_mem _ hb⟩

/-- An authentication by a secret is the secret's life in a memory with one more block. -/
theorem auth_life (path : Option (List Byte)) (nonce : List Byte) (m : Mem) (ops : List SecretOp) :
    authLife .secret path nonce ops m = (secretLife path nonce ops (memAcquire [] m).2).bind fun m' => memRelinquish m.next m' := by
  unfold authLife acquireAuth
  simp only [Res.ok_bind]
  rw [run_secret _ _ _ rfl, secretLife]
  cases secretRun ops (acquireSecret path nonce (memAcquire [] m).2).1 (acquireSecret path nonce (memAcquire [] m).2).2 <;> rfl

theorem give_block {m m' : Mem} {p : List Nat} (hp : m'.live.Perm (p ++ (memAcquire [] m).2.live)) : ∃ m'', memRelinquish m.next m' = .ok m'' ∧ m''.live.Perm (p ++ m.live) ∧ m''.data = m'.data := by
  have hx : m'.live.Perm (m.next :: (p ++ m.live)) := hp.trans List.perm_middle
  refine ⟨{ m' with live := m'.live.erase m.next }, if_pos (hx.mem_iff.2 List.mem_cons_self), ?_, rfl⟩
  have h := hx.erase m.next
  rwa [List.erase_cons_head] at h

end Authenticate

open Authenticate

/-- **C177** (partial: without a passphrase's file).  Destroying an authentication gives up all that was acquired for it, and nothing else, whatever was done with it. -/
theorem C177_authenticate_partial (path : Option (List Byte)) (nonce : List Byte) (m : Mem) (ops : List SecretOp) (hm : Sound m) (ha : Allowed m ops) (hn : lastName ops = none) :
    ∃ m', authLife .secret path nonce ops m = .ok m' ∧ SameBlocks m m' ∧ ∀ b ∈ m.live, m'.data b = m.data b := by
  obtain ⟨m1, h1, h2, h3⟩ := C177_given_up_partial path nonce (memAcquire [] m).2 ops (acquire_sound [] hm) (allowed_more ha) hn
  obtain ⟨m2, k1, k2, k3⟩ := give_block (p := []) h2
  refine ⟨m2, ?_, k2, fun b hb => ?_⟩
  · rw [auth_life, h1]; exact k1
  · rw [k3, h3 b (List.mem_cons_of_mem _ hb)]
    exact (acquire_grew [] m).2 b (hm.2 b hb)

/-- **C177** What is found in an authentication is what was set last; authentications by public keys, which `authenticate.h` lists, end the program. -/
theorem C177_authenticate_holds (path : Option (List Byte)) (nonce : List Byte) (m : Mem) (ops : List SecretOp) (hm : Sound m) (ha : Allowed m ops) :
    (∃ a m0 a' m', acquireAuth .secret path nonce m = .ok (a, m0) ∧ authRun ops a m0 = .ok (a', m') ∧ a'.self = a.self ∧ a'.self ∈ m'.live ∧
      content m' a'.handle = ops.foldl (expected fun x => m.data x.datum) ⟨none, none, nonce, path, none, none, none⟩) ∧
    acquireAuth .publicKey path nonce m = .fatal ∧ acquireAuth .undefined path nonce m = .fatal := by
  refine ⟨?_, rfl, rfl⟩
  obtain ⟨s', m1, h1, h2, -⟩ := C177_holds path nonce (memAcquire [] m).2 ops (acquire_sound [] hm) (allowed_more ha)
  obtain ⟨s2, m2, -, g1, rn, -⟩ := life path nonce (memAcquire [] m).2 ops (acquire_sound [] hm) (allowed_more ha)
  rw [h1] at g1
  cases g1
  refine ⟨_, _, { self := m.next, method := .secret, handle := s' }, m1, rfl, ?_, rfl, ?_, ?_⟩
  · rw [run_secret _ _ _ rfl]
    show (secretRun ops (acquireSecret path nonce (memAcquire [] m).2).1 (acquireSecret path nonce (memAcquire [] m).2).2).bind _ = _
    rw [h1]
    rfl
  · exact rn.inv.perm.mem_iff.2 (List.mem_append_right _ List.mem_cons_self)
  · rw [h2]
    have hs : ∀ (ops : List SecretOp) (c : Content), (∀ source, SecretOp.setId source ∈ ops → ∃ x, source = some x ∧ Foreign m x) →
        ops.foldl (expected fun x => (memAcquire [] m).2.data x.datum) c = ops.foldl (expected fun x => m.data x.datum) c := by
      intro ops
      induction ops with
      | nil => intro c _; rfl
      | cons op ops ih =>
        intro c h
        have e : expected (fun x => (memAcquire [] m).2.data x.datum) c op = expected (fun x => m.data x.datum) c op := by
          cases op with
          | setId source =>
            obtain ⟨x, rfl, hx⟩ := h source List.mem_cons_self
            exact congrArg (fun t => ({ c with id := some t } : Content)) ((acquire_grew [] m).2 x.datum (hm.2 _ hx.2))
          | _ => rfl
        rw [List.foldl_cons, List.foldl_cons, e]
        exact ih _ fun source hs => h source (List.mem_cons_of_mem _ hs)
    exact hs ops _ ha.1

/-- **C177** (violated).  Once a passphrase's file was named, destroying the authentication leaves that name acquired. -/
theorem C177_authenticate_violated (path : Option (List Byte)) (nonce : List Byte) (m : Mem) (ops : List SecretOp) (hm : Sound m) (ha : Allowed m ops) (name : List Byte) (hn : lastName ops = some name) :
    ∃ m' p, authLife .secret path nonce ops m = .ok m' ∧ m'.live.Perm (p :: m.live) ∧ m'.data p = name ∧ ¬SameBlocks m m' := by
  obtain ⟨m1, p, h1, h2, h3, h4, -⟩ := C177_passphrase_violated path nonce (memAcquire [] m).2 ops (acquire_sound [] hm) (allowed_more ha) name hn
  obtain ⟨m2, k1, k2, k3⟩ := give_block (p := [p]) h2
  refine ⟨m2, p, ?_, k2, by rw [k3]; exact h4, fun h => ?_⟩
  · rw [auth_life, h1]; exact k1
  · have e1 := h.length_eq
    have e2 := k2.length_eq
    simp only [List.length_append, List.length_cons, List.length_nil] at e2
    omega

/-- The keyring program's use of it: an id, a new key, and the key ring. -/
example : ∃ m : Mem, ∃ ops, Sound m ∧ Allowed m ops ∧ lastName ops = none ∧ ops ≠ [] := by
  refine ⟨⟨2, [0, 1], fun _ => []⟩, [.setId (some ⟨0, 1⟩), .newKey [1, 2], .ringId, .ringKey, .ringNonce, .sealKey [7]], ⟨by decide, by decide⟩, ⟨fun source hs => ?_, ?_⟩, rfl, by simp⟩
  · simp at hs
    exact ⟨⟨0, 1⟩, hs, by simp [Foreign]⟩
  · simp [Ordered]

end Wizard.Props
