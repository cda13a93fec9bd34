import Verif.Model.FileBlob

/-! `ConfigureFileToStringInfo` (string.c). -/
namespace Wizard

/-- string.c:546-629 `ConfigureFileToStringInfo`: the datum of the string that is returned, or NULL.  `size` is where `lseek` finds the end; what it does not find the end of is not read (570-575).
The loop (600-618) is that of `FileToBlob` (blob.c:667-687).  The size is below 2^63, so that 578 holds. -/
def configureFile (kind : FileKind) (reads : List FileRead) (intr : Bool) : BlobOut :=
  if kind.missing then .null
  else if kind.stream then .null
  else
    match kind.map with
    | some bytes => .blob (bytes.take kind.size)
    | none => blobRead kind.size reads [] intr

end Wizard
