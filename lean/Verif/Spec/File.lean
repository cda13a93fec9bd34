import Verif.Model.File
/-! What the system calls may do, and what is left of a file. -/
namespace Wizard

/-- Only short transfers and interruptions. -/
def NoFail (s : List IOEvent) : Prop := ∀ e ∈ s, e = .intr ∨ ∃ k, e = .short k

/-- Only short transfers. -/
def OnlyShort (s : List IOEvent) : Prop := ∀ e ∈ s, ∃ k, e = IOEvent.short k

/-- What is left to read. -/
def FileIO.rest (f : FileIO) : List Byte := f.content.drop f.pos

end Wizard
