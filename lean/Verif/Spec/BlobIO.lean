import Verif.Model.BlobIO
/-! What the calls of a client that writes say: which bytes they have taken. -/
namespace Wizard.Spec.BlobIO

/-- The bytes of a call. -/
def given : WriteReq → List Byte
  | .write b => b
  | .chunk b => b
  | .sync => []

/-- What a call should return: the number of its bytes; 0 for `SyncBlob`. -/
def wanted (r : WriteReq) : Nat := (given r).length

/-- The bytes that the calls say they have taken: of each as many as it returned. -/
def taken : List WriteReq → List Nat → List Byte
  | r :: rs, n :: ns => (given r).take n ++ taken rs ns
  | _, _ => []

/-- No call of `write` fails. -/
def Sound (calls : List Sys) : Prop := ∀ e, .failed e ∉ calls

/-- The client does not call `WriteBlobChunk`. -/
def NoChunk (reqs : List WriteReq) : Prop := ∀ b, .chunk b ∉ reqs

end Wizard.Spec.BlobIO
