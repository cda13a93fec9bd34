import Verif.Lemmas.Hmac
/-! Digests the kernel computes: SHA-3 with the two paddings, HMAC with the two block sizes. -/
namespace Wizard
open Spec Spec.Hash

theorem sha3_violated {r n : Nat} (hr : r ≤ 200)
    (h : spongeF r 0x01 n [] (fun a => spongeF r 0x06 n [] fun b => decide (a ≠ b)) = true) :
    Keccak.sponge r 0x01 n [] ≠ Keccak.sponge r 0x06 n [] := by
  rw [spongeF_eq hr, spongeF_eq hr] at h
  exact of_decide_eq_true h

theorem sha3224_differs : Keccak.sponge 144 0x01 28 [] ≠ Keccak.sponge 144 0x06 28 [] :=
  sha3_violated (by decide) (by decide +kernel)
theorem sha3256_differs : Keccak.sponge 136 0x01 32 [] ≠ Keccak.sponge 136 0x06 32 [] :=
  sha3_violated (by decide) (by decide +kernel)
theorem sha3384_differs : Keccak.sponge 104 0x01 48 [] ≠ Keccak.sponge 104 0x06 48 [] :=
  sha3_violated (by decide) (by decide +kernel)
theorem sha3512_differs : Keccak.sponge 72 0x01 64 [] ≠ Keccak.sponge 72 0x06 64 [] :=
  sha3_violated (by decide) (by decide +kernel)

/-- HMAC with the empty key and message, evaluated step by step. -/
def hmacEmptyF {α : Type} (r : Nat) (x : Byte) (n B : Nat) (k : List Byte → α) : α :=
  spongeF r x n (List.replicate B 0x36) fun d => spongeF r x n (List.replicate B 0x5c ++ d) k

theorem hmacEmptyF_eq {α : Type} {r : Nat} (hr : r ≤ 200) (x : Byte) (n B : Nat) (k : List Byte → α) :
    hmacEmptyF r x n B k = k (hmac (Keccak.sponge r x n) B [] []) := by
  unfold hmacEmptyF hmac hmacPad
  rw [spongeF_eq hr, spongeF_eq hr]
  simp only [List.length_nil, Nat.zero_le, if_true, List.nil_append, Nat.sub_zero, List.append_nil, List.map_replicate]
  rfl

theorem hmac_sha3_eval : hmacEmptyF 136 0x01 32 64 (fun a => hmacEmptyF 136 0x01 32 136 fun b => decide (a ≠ b)) = true := by
  decide +kernel

theorem hmac_sha3_differs : hmac (Keccak.sponge 136 0x01 32) 64 [] [] ≠ hmac (Keccak.sponge 136 0x01 32) 136 [] [] := by
  have h := hmac_sha3_eval
  rw [hmacEmptyF_eq (by decide), hmacEmptyF_eq (by decide)] at h
  exact of_decide_eq_true h

end Wizard
