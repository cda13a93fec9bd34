import Verif.Model.SecretMemory
/-! What is to become of the memory of secrets. -/
namespace Wizard.Spec.SecretMemory
open Wizard

/-- A memory as programs find it: numbers of blocks are new, and no block is acquired twice. -/
def Sound (m : Mem) : Prop := m.live.Nodup ∧ ∀ b ∈ m.live, b < m.next

/-- The same blocks are acquired. -/
def SameBlocks (m m' : Mem) : Prop := m'.live.Perm m.live

/-- A string that the program owns: it is not one of the secret's. -/
def Foreign (m : Mem) (s : StrObj) : Prop := s.self ∈ m.live ∧ s.datum ∈ m.live

/-- The ids that are set are the program's. -/
def Sources (m : Mem) (ops : List SecretOp) : Prop := ∀ source, SecretOp.setId source ∈ ops → ∃ s, source = some s ∧ Foreign m s

/-- The steps come in an order in which what they use is there: the key ring gets an id or a key only when there is one, and only a key that it has is enciphered.  The arguments tell
whether there is an id, a key, and a key in the key ring. -/
def Ordered : Bool → Bool → Bool → List SecretOp → Prop
  | _, _, _, [] => True
  | id, key, ring, op :: ops => match op with
    | .ringId => id = true ∧ Ordered id key ring ops
    | .ringKey => key = true ∧ Ordered id key true ops
    | .sealKey _ => ring = true ∧ Ordered id key ring ops
    | .setId _ => Ordered true key ring ops
    | .newId _ => Ordered true key ring ops
    | .newKey _ => Ordered id true ring ops
    | .found _ _ _ => Ordered id key true ops
    | .setPassphrase _ => Ordered id key ring ops
    | .ringNonce => Ordered id key ring ops

/-- The name of the passphrase's file that was set last. -/
def lastName : List SecretOp → Option (List Byte)
  | [] => none
  | .setPassphrase name :: ops => (lastName ops).orElse fun _ => some name
  | _ :: ops => lastName ops

/-- What a program finds in a secret and in its key ring. -/
structure Content where
  id : Option (List Byte)
  key : Option (List Byte)
  nonce : List Byte
  ringPath : Option (List Byte)
  ringId : Option (List Byte)
  ringKey : Option (List Byte)
  ringNonce : Option (List Byte)

def content (m : Mem) (s : SecretObj) : Content where
  id := s.id.map fun x => m.data x.datum
  key := s.key.map fun x => m.data x.datum
  nonce := m.data s.nonce.datum
  ringPath := s.ring.path.map m.data
  ringId := s.ring.id.map fun x => m.data x.datum
  ringKey := s.ring.key.map fun x => m.data x.datum
  ringNonce := s.ring.nonce.map fun x => m.data x.datum

/-- What each step makes of it: what is set is what is found, and all else stays. -/
def expected (text : StrObj → List Byte) (c : Content) : SecretOp → Content
  | .setId source => { c with id := source.map text }
  | .setPassphrase _ => c
  | .newKey key => { c with key := some key }
  | .newId id => { c with id := some id }
  | .ringId => { c with ringId := c.id }
  | .ringKey => { c with ringKey := c.key }
  | .ringNonce => { c with ringNonce := some c.nonce }
  | .found _ key nonce => { c with ringKey := some key, ringNonce := some nonce }
  | .sealKey key => { c with ringKey := some key }

/-- A program acquires a secret, takes some steps with it, and destroys it. -/
def secretLife (path : Option (List Byte)) (nonce : List Byte) (ops : List SecretOp) (m : Mem) : Res Mem :=
  match secretRun ops (acquireSecret path nonce m).1 (acquireSecret path nonce m).2 with
  | .ok r => destroySecret r.1 r.2
  | .ub => .ub
  | .fatal => .fatal

/-- A program may do this: the ids that it sets are its own, and the steps come in order. -/
def Allowed (m : Mem) (ops : List SecretOp) : Prop := Sources m ops ∧ Ordered false false false ops

end Wizard.Spec.SecretMemory
