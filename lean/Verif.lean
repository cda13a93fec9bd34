import Verif.Props.AES
import Verif.Props.Argv
import Verif.Props.Authenticate
import Verif.Props.Base64
import Verif.Props.Blob
import Verif.Props.BlobIO
import Verif.Props.BlobLife
import Verif.Props.Catalog
import Verif.Props.Chacha
import Verif.Props.Cipher
import Verif.Props.CipherInfo
import Verif.Props.Configure
import Verif.Props.ConfigureFile
import Verif.Props.Content
import Verif.Props.Copy
import Verif.Props.DigestFile
import Verif.Props.Doctype
import Verif.Props.DtdDoc
import Verif.Props.EncipherCommand
import Verif.Props.Entropy
import Verif.Props.ExcThreads
import Verif.Props.Exception
import Verif.Props.Expand
import Verif.Props.ExpandUnread
import Verif.Props.FatalError
import Verif.Props.File
import Verif.Props.FileBlob
import Verif.Props.Genesis
import Verif.Props.Glob
import Verif.Props.Hash
import Verif.Props.HashOwn
import Verif.Props.Hashmap
import Verif.Props.Heap
import Verif.Props.Hex
import Verif.Props.Key
import Verif.Props.Keyring
import Verif.Props.KeyringCommand
import Verif.Props.KeyringPrint
import Verif.Props.Lazy
import Verif.Props.LinkedList
import Verif.Props.Locale
import Verif.Props.LocaleException
import Verif.Props.Lock
import Verif.Props.LogFile
import Verif.Props.LogSettings
import Verif.Props.LogText
import Verif.Props.Memory
import Verif.Props.Mime
import Verif.Props.MissingFiles
import Verif.Props.Option
import Verif.Props.OptionNames
import Verif.Props.Packet
import Verif.Props.Passphrase
import Verif.Props.Path
import Verif.Props.PrintText
import Verif.Props.ProgramEffects
import Verif.Props.Programs
import Verif.Props.Random
import Verif.Props.Report
import Verif.Props.Reservoir
import Verif.Props.Resource
import Verif.Props.Secret
import Verif.Props.SecretMemory
import Verif.Props.Serpent
import Verif.Props.SharedList
import Verif.Props.SharedMap
import Verif.Props.SharedTurns
import Verif.Props.SiPrefix
import Verif.Props.Signals
import Verif.Props.Signature
import Verif.Props.SplayOwn
import Verif.Props.SplayTree
import Verif.Props.StringInfo
import Verif.Props.StringVar
import Verif.Props.Strip
import Verif.Props.Substitute
import Verif.Props.TempFile
import Verif.Props.Timer
import Verif.Props.Timestamp
import Verif.Props.Token
import Verif.Props.Twofish
import Verif.Props.Utf16
import Verif.Props.Xml
import Verif.Props.XmlAttr
import Verif.Props.XmlAttribute
import Verif.Props.XmlDestroy
import Verif.Props.XmlDoc
import Verif.Props.XmlEntity
import Verif.Props.XmlEscape
import Verif.Props.XmlPath
import Verif.Props.XmlPrune
import Verif.Props.XmlTags
import Verif.Props.XmlTree
import Verif.Props.XmlWrite
