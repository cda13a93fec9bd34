import Verif.Model.SecretMemory

/-! authenticate.c: authentication, which is by a secret only. -/
namespace Wizard

/-- authenticate.h:32-37 `AuthenticateMethod`. -/
inductive AuthMethod where
  | undefined
  | secret
  | publicKey
  deriving DecidableEq

/-- authenticate.c:58-71 `struct _AuthenticateInfo`: its own block, the method, and the secret. -/
structure AuthObj where
  self : Nat
  method : AuthMethod
  handle : SecretObj

/-- authenticate.c:100-125 `AcquireAuthenticateInfo`: its block, then the secret; other methods end the program (C180). -/
def acquireAuth (method : AuthMethod) (path : Option (List Byte)) (nonce : List Byte) (m : Mem) : Res (AuthObj × Mem) :=
  let a := memAcquire [] m
  match method with
  | .secret => let s := acquireSecret path nonce a.2; .ok (⟨a.1, method, s.1⟩, s.2)
  | _ => .fatal

/-- authenticate.c:153-183 `AuthenticateKey`, 260-291 `GenerateAuthenticateKey`, 521-546 `SetAuthenticateId`, 623-647 `SetAuthenticatePassphrase`: the step is that of the secret.  The last ignores
other methods, the others end the program. -/
def authStep (op : SecretOp) (a : AuthObj) (m : Mem) : Res (AuthObj × Mem) :=
  match a.method with
  | .secret => do let r ← secretStep op a.handle m; .ok ({ a with handle := r.1 }, r.2)
  | _ => match op with
    | .setPassphrase _ => .ok (a, m)
    | _ => .fatal

/-- Steps one after the other. -/
def authRun : List SecretOp → AuthObj → Mem → Res (AuthObj × Mem)
  | [], a, m => .ok (a, m)
  | op :: ops, a, m => do let r ← authStep op a m; authRun ops r.1 r.2

/-- authenticate.c:208-231 `DestroyAuthenticateInfo`: the secret, then the block. -/
def destroyAuth (a : AuthObj) (m : Mem) : Res Mem :=
  match a.method with
  | .secret => do let m ← destroySecret a.handle m; memRelinquish a.self m
  | _ => .fatal

/-- A program acquires it, takes some steps, and destroys it. -/
def authLife (method : AuthMethod) (path : Option (List Byte)) (nonce : List Byte) (ops : List SecretOp) (m : Mem) : Res Mem := do
  let a ← acquireAuth method path nonce m
  let b ← authRun ops a.1 a.2
  destroyAuth b.1 b.2

end Wizard
