# Formal model of WizardsToolkit in Lean 4

## Layout

* `properties.jsonl`   the claims, in terms of the public API.
* `lean/Verif/Model/*.lean`   the model, one file per C file (or group). Every definition cites file and lines of `/repo`.
* `lean/Verif/Spec/*.lean`   small independent specifications (abstract maps, sequences, published padding rules, glob semantics).
* `lean/Verif/Lemmas/*.lean`   helper lemmas.
* `lean/Verif/Props/*.lean`   the property theorems, each with an `example` that meets its hypotheses.
* `MANIFEST.json`   property -> theorem names and status.
* `seeded/LOG.jsonl`   mutation experiments: wrong programs the theorems were tested against.

## Trusted base

* Lean 4.33.0's kernel, and the axioms `propext`, `Classical.choice`, `Quot.sound` only. No axiom of our own, no `sorry`,
  no `native_decide`, no `bv_decide`. Finite tables (256-entry S-boxes and the like) are discharged by `decide +kernel` over
  the whole table, i.e. by kernel reduction.
* The reading of the C source: nothing ties the model to the code but the citations. The code was not compiled or run.
* Modelled data: a byte is `BitVec 8`, 32/64-bit words are `BitVec 32/64`; `size_t` arithmetic is `Nat` where the claim is
  not about wrap-around and `BitVec 64`/explicit modulus where it is. A C string is the list of bytes before its NUL.
* Undefined behaviour (out-of-bounds read/write, use after free, NULL dereference), `assert` failure and fatal errors are
  distinct outcomes of the model (`Option`/`Except`-valued functions), not assumed away.

## What is not modelled

* `malloc` failure, except where the property is about it (virtual memory, resource counters).
* The OS: system calls are parameters (a schedule of results). Threads appear only in the file-lock protocol.
* Floating point (only the integer part of the pseudo-random generator; timers over exact rationals).
* Compression wrappers (zlib, bzip2, lzma), except what failing ones release; Windows code; the loading of log, mime and locale files
* Cryptographic strength. Only functional facts are stated (invertibility, equality with the published definition,
  dependence or independence on inputs).

## How each property is handled

(The status of each is in MANIFEST.json; findings are collected at the end.)

| Id | Model | Proof |
|----|-------|-------|
| C01 | hex digit tables of string.c over byte lists | finite table + induction on the byte list |
| C02 | memcmp-then-length comparison | equality with lexicographic order; order laws by induction |
| C03 | StringInfo as length + allocated bytes with slack | list lemmas |
| C04 | same, with heap bounds as an outcome | counterexample (code violates the claim), partial theorem for what does hold |
| C05 | strlcpy/strlcat loops over a buffer with bounds check | loop invariant by induction |
| C06 | AsciiMap table, comparison loop | table by kernel evaluation; order laws by induction |
| C07 | encoder loop and decoder state machine | induction on 3-byte groups; table by kernel evaluation |
| C08 | decoder state machine with an explicit output buffer size | invariant on (state, output length, characters read) |
| C09 | search/replace loop with growth | equality with recursive spec |
| C10 | recursive matcher on the fragment | soundness and completeness w.r.t. an inductive matching relation |
| C11 | tokenizer with bounds outcomes | invariant; counterexamples for the unsafe texts |
| C12 | strip loop | list lemmas |
| C13-C15 | heap of nodes with next pointers, head/tail/next fields | simulation to `List`; counterexample for middle insertion |
| C16-C18 | array of bucket lists, capacity table, rehash | refinement to finite map; counterexample for the count |
| C19-C22 | binary tree with the recursive splay, depth limit, balancing, iterative traversal | in-order preservation, BST invariant, refinement to finite map, depth bound of balanced tree |
| C23-C26 | block ciphers word for word | round-by-round inversion; tables by kernel evaluation |
| C27-C28 | mode loops over a buffer with slack, abstract block cipher | induction over blocks |
| C29 | big-endian counter with wrap outcome | counter value strictly increases |
| C30-C31 | concrete Serpent/ChaCha in ECB | the claim fails: theorem exhibiting the unchanged bytes / reused keystream for every key |
| C32-C33 | generic Merkle-Damgard buffer machine, instantiated to MD5, SHA-1, SHA-2; sponge for SHA-3; CRC | state = fold over complete blocks + remainder; equality with padding spec |
| C34 | HMAC object over an abstract hash object | equality with the RFC 2104 formula |
| C35 | CRC over GF(2) | linearity, kernel of the burst map |
| C36-C39 | random.c: SetRandomKey over the concrete HMAC, seeding, nonce, xoshiro step and value | stream characterisation by induction over requests; inverse of the step; counterexamples for seeding |
| C40-C41 | read/write loops driven by a schedule of system-call results | induction on the schedule |
| C42 | lock file with inodes, one step per system call, any number of threads and processes, deaths | inductive invariant for executions without failed acquires, nesting and takeover; counterexample executions for each of the three |
| C43-C45 | keyring file as bytes, ExportKeyringKey and ImportKeyringKey over the file model with system-call schedules that include a crash at any byte | record codec, scan lemma for complete and torn records, induction on histories; counterexamples for torn records |
| C46 | key.c: AcquireKeyInfo, SetKeyInfo, GetKeyInfo over the models of the splay tree, the byte strings and AES in counter mode; memory as a list of byte strings by address | refinement to a map from ids to keys, by induction over the history; all ids but the random session id |
| C47-C50 | 64-bit signed counters, refusal path, virtual memory ladder | invariants; counterexamples for the double release and for wrap-around |
| C51 | all option tables, `ParseWizardOption` with its uninitialised token buffer, `WizardOptionToMnemonic` (Model/Option) | Props/Option: for every table, letter-case folding, list of items and contents of the buffer, induction on the list; entries of the real tables by kernel evaluation; `!word`, the command table and the empty text are refuted |
| C52 | `ThrowException`, `CatchException`, `ClearWizardException`, `InheritException` on any number of exceptions (Model/Exception; the linked list is a list, by C13) | Props/Exception: induction on histories against a specification on plain lists; fatal exceptions in `CatchException` and repetition up to letter case are refuted |
| C53 | xml-tree.c: CanonicalXMLContent and ParseEntities, composed | round trip and shape of the escaped text for every text of ASCII/UTF-8 meaning; false for UTF-8 beyond ASCII and for binary content |
| C55 | xml-tree.c: ValidateEntities, the entity part of ParseInternalDoctype, ParseEntities | termination by the measure (ampersands, length) for every accepted list of declarations; false for parameter entities, and harmless documents are refused |
| C54 | xml-tree.c: nodes with their five links, one function per field; `AddChildToXMLTree`, `InsertTagIntoXMLTree`, the traversals (Model/XmlTree) | Props/XmlTree: invariant on three linked lists per node, by induction over histories; the order is specified by offsets and by what was attached when (Spec/XmlTree) |
| C56 | `ConvertUTF16ToUTF8` with its growing buffer, and the length `NewXMLTree` gives it (Model/Utf16) | Props/Utf16: induction on the text for both byte orders against UTF-16 and UTF-8 written from the RFCs; the terminator, documents and lone surrogates are refuted |
| C57 | GetPathComponent in the caller's memory: filesystem, subnode, root, head, tail, base, extension; `stat` is a parameter | list lemmas about the scanning loops; false of absolute, hidden and queried names, of bare subnodes and of long paths on a filesystem |
| C58 | blob streams over files and maps: ReadBlob, ReadBlobByte, ReadBlobChunk, EOFBlob, TellBlob | invariant relating the stream to the rest of the contents; induction over the calls |
| C59-C60 | AcquireWizardMemory, RelinquishWizardMemory, ResizeWizardMemory, ExpandHeap over byte memory (boundary tags, size classes, segments) | an invariant of tiles, tags and sorted lists kept by every step, induction over histories; false for sizes 96 to 119 bytes below a multiple of 2 MiB |
| C61 | same model as C11 | the pointer invariant carries a strict length decrease |
| C62 | same model as C16 | the scan for the current key stops where the iterator stands; collision counterexample |
| C63 | same model as C19 | the scan is the in-order list; splitting at the first binding with the value |
| C64 | same model as C19 plus the clone loop | induction on the remaining bindings, each added at the end |
| C65 | aes.c: all tables, key expansion for both directions, block functions | FIPS 197 written over GF(2^8) polynomials; table entries checked for all 256 bytes by the kernel, rounds and schedule by induction |
| C66 | chacha.c: key and nonce setup, quarter rounds, block function | word-for-word equality with ChaCha20 on a 4x4 matrix, for symbolic words |
| C67 | same model as C66 | equality of states for keys of 16 bytes or more; the failing case proved for all short keys |
| C68 | cipher.c: nonce generation, padding, all loops of all modes over an abstract block cipher, on a byte buffer with bounds | the in-memory loop equals a fold over blocks (induction), which equals the SP 800-38A recursion |
| C69 | same model as C68 | byte-wise keystream form of CTR and OFB |
| C70 | serpent.c: every S-box, linear and key macro statement by statement; the three functions as lists of macro lines with their registers | macros equal the published 4-bit tables bit by bit; an abstract interpreter, proved sound, follows the register allocation of the 65, 65 and 236 lines; prekeys by induction |
| C71 | twofish.c: all tables, the K/Q/Sbox macros, SetTwofishKey for every key length, both block functions | tables equal q0, q1, MDS and RS of the paper by kernel evaluation over all 256 bytes, linearity of the MDS and RS products, then the rounds two at a time |
| C72 | same model as C71 | the effective key for every length; false for lengths other than 16, 24, 32 |
| C73 | sha2224.c in full | digest of two blocks evaluated by the kernel on model and specification; first block by the register lemma of SHA-256 |
| C74 | sha3.c in full: the queue, the 24 rounds on 25 words, padding, squeezing | every step equals FIPS 202 position by position; sponge invariant over updates; difference evaluated by the kernel |
| C75 | the counters of sha1.c, sha2*.c | invariant with the length recorded as a separate number |
| C76 | sha3.c UpdateSHA3 loop with its 32-bit cut | the loop is at a fixed point, for every fuel |
| C77 | random.c: conversion of keys and seed words to double, with IEEE rounding of integers to 53 bits | arithmetic on the rounding function; false at the top of the range |
| C78 | keyring.c writer with the protocol of the object, reader with the protocol of the record | the record is read with the other layout; false for protocol 1.0 |
| C79 | the same lock model, one thread running alone | symbolic execution of the acquire; false for the first call |
| C80 | the memory of the key.c model: heap of byte strings and the map from ids to them | invariant that every stored key is enciphered under the same nonce and key; false, the key stream is shared by all keys |
| C81 | resource.c: ResourceComponentGenesis for every page count | arithmetic; false, mebibytes are taken for bytes |
| C82 | same model as C54 | the chain of tags is the list of first children while children are attached in document order, by induction over the history; false otherwise |
| C83 | `PruneTagFromXMLTree` on the model of C54 | surgery on the three lists from any reachable state; false for the traversal by tag when the first child or a child attached out of order is pruned |
| C84 | xml-tree.c: ParseEntities byte by byte over memory (character references, replacement in place and in a grown buffer) | simulation of a declarative reading relation; false for entities with an empty text |
| C85 | the line-end loop of ParseEntities | induction over the text; false when the text ends in CR or CR LF |
| C86 | ParseEntities for attributes, with the in-place squeezing of spaces | same simulation as C84, then induction over the words |
| C87 | GetPathComponents: counting loop and cutting loop | induction over the components |
| C88 | AppendFileExtension over the root component of C57 | composition with C05; false of hidden files |
| C89 | ChopPathComponents | induction over the number |
| C90 | GetXMLTreePath over the tree model of C54 and the path model of C57 | induction over the tags; false of numbers in brackets and of tags with a colon |
| C91 | AddPathToXMLTree | induction over the tags, with the uniqueness of document order |
| C92 | WriteBlob, WriteBlobStream, SetBlobExtent over a model of stdio | induction over the calls; false after SetBlobExtent |
| C93 | SetBlobExtent and WriteBlobByte on a mapped blob | false for every mapped file |
| C94 | ReadBlobChunk with a stale errno | read specification of C58; never returns at the end of a file |
| C95 | the memory pool of C59 with sizes near 2^64 | arithmetic modulo 2^64; three ranges of sizes that break it |
| C96 | the memory pool of C59 | the invariant that free blocks are apart: with nothing allocated a segment is one block |
| C97 | DestroyWizardMemory over the pool of C59 | permutation of segments and grants; false after 1024 segments, which a history of 1024 requests reaches |
| C98 | RelinquishWizardMemory over the pool of C59 | frame argument over the released block: false for every block |
| C99 | the loops of encipher.c and decipher.c over blob streams, chunks, HMAC, compression and the cipher modes of C27 | framing invariant by induction over the chunks; false for sizes that end within the last block of a chunk |
| C100 | the same loops on arbitrary files | every chunk written matches its HMAC; false for the whole file: cutting and exchanging chunks is accepted |
| C101 | the encipher loop in CTR and OFB mode | the stream of bytes of C68, chunk by chunk: false |
| C102 | the decipher loop on arbitrary files | induction over the loop with the bounds of C28 |
| C103 | secret.c over the key ring file of C43 and the cipher of C27; authenticate.c passes the calls on | the search loop by induction, then C43 import/export and the CTR round trip; partial (last record of protocol 1.0) |
| C104 | GenerateSecretKey over system calls that fail | false on a full disk |
| C105 | AuthenticateSecretKey on arbitrary files | case analysis over all outcomes |
| C106 | the search loop of GenerateSecretKey with a bound that shows | exact condition for not ending; false for keys of less than eight bits |
| C107 | two calls of GenerateSecretKey on one object | the stream of C29: false |
| C108 | protocol and time stamp of the key ring object through the search | false for all but the first key of a ring |
| C109 | GenerateSecretKey after a record of protocol 1.0 | false: reuse of C78 |
| C110 | NewXMLTree: the loop over constructs, tags, attributes, comments, CDATA, DOCTYPE, instructions; ParseInternalDoctype is a parameter | grammar of documents and the tree they write as a separate specification; induction over documents; false for rdf:Bag, rdf:Seq and some first attributes |
| C111 | ParseProcessingInstructions, GetXMLTreeProcessingInstructions | invariant of the table of targets through the induction of C110 |
| C112 | XMLTreeInfoToXML, XMLTreeTagToXML, EncodePredefinedEntities | what is written is a document in the grammar of C110 that denotes the tree (induction over trees), then C110; false for elements with children and no content, and for instructions, which are written three times |
| C113 | the same, with buffers and NULL values, default attributes and instructions | induction over trees with the room left in the buffer as invariant; false for far elements and attributes without value |
| C114 | GetEntropyFromReservoir, SaveEntropyToReservoir over the file model of C40-C45 | writes over a file as an invariant over short and interrupted writes, then reading field by field; false for protocol 1.0 and for failed writes |
| C115 | the same | every content splits into the fields read or is too short; false for every content without complete header |
| C116 | the same, with the death of the process at every byte | content after a crash is a new prefix and an old suffix, then C115; false for the first save |
| C117 | the same, GetStringInfoCRC | linearity of the CRC (lemmas of C35) |
| C118 | threads as programs of calls; a call is three atomic steps: the unlocked test, taking the semaphore, the rest; every schedule | simulation: what the test read stays true; false where another thread takes the value or fills the list |
| C119 | the same, hash map | the unlocked test reads arguments only, so every schedule is a sequential history (C16-C18) |
| C120 | the same, splay tree, with the moment at which a removal has freed the root | simulation by C19; false with removals and for two iterating threads |
| C121 | the parser (C110) on any sequence of tags | the parser's stack follows a stack machine, which accepts exactly the grammar of one element; false for text outside the root and text in closing tags |
| C122 | the first use of a component step by step: both tests of the cache, both tests of the semaphore, the mutex (pthreads or OpenMP), any number of threads | invariant over all schedules; every call ends by a rank of program points; false for OpenMP before the library is started |
| C123 | exceptions (C52) with their semaphores, step by step, any number of threads and exceptions | invariant over all schedules; calls end by induction on the rank of semaphores; false for catching (thrown in between: lost) and for inheriting in a circle (deadlock) |
| C124 | `TranslateEvent` and `TranslateFilename` with their growing buffer; the texts of times, processes and numbers are parameters | loop invariant (the text so far, the room left) against an independent expansion; false for a source file without a name, for texts longer than the buffer, for long XML entries, for a log without a file name |
| C125 | the file handler of `LogWizardEventList` and `CloseWizardLog` over a disk of files; naming is a parameter | invariant: the files are a series of sessions of exactly the events logged; false for the limit "unlimited" (crash), for the room of all generations, for events that contain tags |
| C126 | `ParseLogHandlers` and the names `ListLogInfo` prints | induction over lists of names; false for a comma at the end, unknown names, listings |
| C127 | `GetLogInfo`, `IsEventLogging`, the lists, `SetLogEventMask` over a loaded cache with its semaphore | case analysis; false for every name (waits for ever) and every pattern but `*` (crash), and for the mask returned |
| C128 | the functions of timer.c over exact times; clock readings are parameters | simulation of an abstract stopwatch, the error is one epsilon per call; false for restarting a running timer and for `ResetTimer` |
| C129 | `FormatWizardTime`; `localtime` and `gmtime` are any broken-down times of the instant by the Gregorian calendar | calendar lemmas (adjacent days), against an independent reader of RFC 3339; false in zones that are not whole hours |
| C130 | `ParseWizardTime`; `strtod` and `mktime` are parameters with the obvious behaviour on digits and valid times | the loop over the separators on every valid date; right behind UTC in the zone of the program; false for zones ahead of UTC, UTC, other zones and numbers beyond an `int` |
| C131 | `GetMimeInfo` over a loaded cache; `GlobExpression` and the byte order of the machine are parameters | loop invariant: the best of the types seen; rules against independent definitions of slices and numbers; false for masks, for the last bytes of contents, for types with only a pattern, for empty contents, for negative offsets |
| C132 | the loop of `LoadMimeCache` that reads magic numbers | induction over notations; false for a last backslash, octals before digits, `\8`, `\a` |
| C133 | `IncreaseEntropy`, `RestoreEntropy` and the functions of zip.c, bzip.c, lzma.c; the libraries are parameters that keep their documentation | symbolic execution for every message; false from 4 GiB on (zip) |
| C134 | as C133 | both directions for zip and bzip; false for lzma: cut streams and sizes too small are reported as success |
| C135 | all of signature.c on 64-bit words | simulation of the 64-bit words by 32-bit words, then the invariant of C30's proofs over blocks and parts |
| C136 | `GetPhrase` and `GetPassphrase`; the terminal and the signals are the environment | induction over lines and interruptions; false at the end of input, after errors, after ignored signals and for lines of 4096 bytes |
| C137 | as C136, with the settings of the terminal and the dispositions of signals | invariant over all histories, also at each signal; false for SIGTTOU |
| C138 | as C136, with a record of what is echoed | invariant over all histories; false if the terminal is descriptor 0 |
| C139 | `LoadLocaleCache`, `ChopLocaleComponents`, `GetLocaleMessage`, on the token reader of C11 | induction over the elements of a catalog, with the tag as invariant; false for texts with slashes, messages in no group, texts over 255 bytes, blanks in tags and second locales |
| C140 | `GetConfigureInfo` on the list of entries, with the move to the front it makes | invariant over all histories of lookups; false if an entry has no name |
| C141 | `GetConfigureList`, `GetConfigureInfoList`, `GetLocaleList`, `GetMimeList`; `qsort` is any function that sorts by the comparison it is given | permutation and order; false of messages (the first is left out), of MIME types (addresses are compared) and of entries without names |
| C142 | `GetConfigurePaths` and `GetConfigureOptions` on an arbitrary file system | induction over the directories; false of `XDG_CONFIG_HOME` and of paths over 4095 bytes |
| C143 | `LoadConfigureCache` and the including of files of `LoadMimeCache`, on the documents XML parsing yields | induction over the tree of included files; false for absolute names (configure.c) and files in the root directory |
| C144 | `StringToArgv`: the pass that counts and the pass that takes arguments out | both passes refine one specification of arguments by induction; false of text directly behind a closing quote and of quotes inside arguments |
| C145 | `FileToBlob` on every sequence of results of `read`, `fstat` and `mmap` | induction over the sequence; false of large reads (heap overrun), interruptions (it never returns) and errors |
| C146 | `AcquireUniqueFileResource` and `GetPathTemplate` on a file system, with random bytes and failures given by the environment | case analysis and induction over the tries; false if it is no directory, at the limit of files and for names that differ in case only |
| C147 | `RelinquishUniqueFileResource` | invariant over all histories; false: what it returns and `trash` are wrong |
| C148 | the splay tree of temporary files, its destruction and `AsynchronousResourceComponentTerminus` | invariant over all histories; false once the limit of files is reached |
| C149 | what `DigestCommand` writes and how `AuthenticateDigest` scans it, byte by byte, with the real options, escapes and `StripString` | the scanner inverts the writer, by induction over the files; false of paths with blanks or ampersands and of the exit status |
| C150 | the scanner of `AuthenticateDigest` on arbitrary bytes | strong induction over the file; false of leading white space (it never ends), long keys and ` ?>` |
| C151 | the loop that reads and hashes a file, with the size of its buffer | induction over the pieces; false of files that grow while they are read (heap overrun) |
| C152 | the packet `EncipherContent` writes and how `GetContentInfo` scans it, with the real digest check, XML parser (C110), options (C51) and numbers | the packet is a well-formed document whose tree is read back field by field; false of chunks of 4 GiB or more and of names of files that close their quotes |
| C153 | the scanner of `GetContentInfo` on arbitrary bytes | strong induction over the file; false of a first byte that is no graphic character (it never ends) and of long keys |
| C154 | the option loop of `EncipherCommand` with the real option tables and `ParseWizardOption` (C51) | induction over the command line, folding each option into the settings; false of `-key-length`, `-random`, `-(de)compress` and negative chunk sizes |
| C155 | the calls that change a splay tree (C19) with a ledger of what they hand to the callbacks and back, and the release of the nodes in `DestroySplayTree` and `ResetSplayTree` over a heap of addresses, with the links in the keys of released nodes | the ledger is balanced by induction over the history; the release follows the list of pending nodes, by induction on the shape of the tree |
| C156 | as C155, and the position of the iterator | consequence of C155 if each key is put once; false of a key deleted under the iterator and of a key pointer that is put again |
| C157 | the calls of C16 with a ledger and with a flag for each allocation of `PutEntryInHashmap`; the loops of `DestroyHashmap` | the entries in the table are balanced with the ledger by induction over the history, for any hash and comparison; needs that the table can grow (C158) |
| C158 | as C157 | case analysis of the failing puts; false if the table cannot grow (the binding stays) and if the element cannot be allocated (the old binding is lost) |
| C159 | the chain of elements in memory of C13, with the value of an element overwritten before the element is released | induction along the chain |
| C160 | a FILE with a buffer on a file whose calls of write take some bytes or fail, as a given list says; a library that keeps or drops what it could not write | invariant: what reached the file and what is buffered are the bytes taken; false for libraries that drop bytes, as fclose replaces the status, and for failures before CloseBlob |
| C161 | a FILE on a file that cannot be read from some place on | a relation between the damaged and the shorter file, kept by every call; false: they cannot be told apart |
| C162 | what OpenBlob acquires for each kind of name and what the other calls release, as a list of events | invariant of the blob, then counting; false for commands, named pipes and descriptors, failing opens, extended maps, and files that cannot be decompressed |
| C163 | xml-tree.c: ParseInternalDoctype whole, the search for the end of the subset in NewXMLTree, GetXMLTreeAttribute with its defaults; the parameter of the C110 model is instantiated with it | grammar of declarations as a separate specification; one turn of the loop per declaration, induction over declarations and over attribute definitions; false behind a list with a default value, for a second list, for some names, for `>` in literals and for `]>` |
| C164 | NewXMLTree (C110) with ParseInternalDoctype (C163) in place of its parameter | the specification of documents takes what is declared as a parameter; the reading of the subset establishes that what the parser knows is what is declared, and the induction over documents of C110 carries it |
| C165 | xml-tree.c: DestroyXMLTree, DestroyXMLTreeChild, DestroyXMLTreeOrdered, DestroyXMLTreeRoot (476-607) on the heap of C54 and C83; what one node owns is one unit, tables of roots are another; malloc/free are a list of what was given up, reading a freed node is undefined | the pointers from a top form a finite binary tree (way up has one length, bounded by the number of nodes); induction over that tree; induction over the tops; the tables of inserted roots leak |
| C166 | xml-tree.c: SetXMLTreeAttribute (2523-2586), the start of GetXMLTreeAttribute (828-835), the arrays NewXMLTree leaves (2055, 2088-2109); arrays are lists of cells that may be unset; the pointer a client got from the element may be handed back | the array of an element is its pairs, NULL and an unset cell: induction over the pairs and over the calls; adding a second attribute and removing any are shown to be undefined in general |
| C167 | wizard.c: WizardsToolkitGenesis (207-314) and WizardsToolkitTerminus (334-350) as steps of threads, with the mutexes of semaphore-private.h (one copy in wizard.c, one in semaphore.c), ActivateSemaphoreInfo, RelinquishSemaphoreInfo and the start and end of the five components | invariant over all schedules (who holds which mutex, which components are there at each place, which semaphores are in use); a bound on the steps left gives that all threads can finish; with OpenMP only one thread is safe, and the configure component is never ended |
| C168 | keyring.c 537-726 over the file model of C43; `Spec/KeyringPrint` has the text in one piece | the record reader on complete and torn records, the loop by induction; secrecy follows because the text is a function of the public parts; the text is injective by cutting at `"` and `<`; a damaged ring dies in `GetFilePath(NULL)` (violated), a missing one counts as listed (violated) |
| C169 | utilities/keyring.c 123-502: arguments, options, the export loop, the list loop; files are a map from names to contents | argument lists by induction over C168 and C43; partial: without options; violated: option values listed as rings, every export gives up the argument vector twice, `-export id ring` looks up NULL, an output that is also a ring |
| C170 | string.c 133-155, 280-308, 417-447, 830-833 over a heap of numbered blocks in which `realloc` moves a block or not, as the history says; `Spec/StringVar` has texts only | representation invariant (own block, text and NUL, every block owned) kept by every allowed call, by induction over histories; partial: sources outside the string that is changed; violated: a part of the string itself, NULL appended to a string |
| C171 | exception.c 997-1044 over the exception log of C52; what `vsnprintf` gives is a parameter | histories by induction with the invariant of C52; messages are cut apart from the right at `/` and blanks; partial: the kind of event; violated: the log is told the severity of the report before, long reasons lose their place and hide the next report |
| C172 | encipher.c 142-904 and decipher.c 142-820 as wholes over a map of files: the command line (C154), the key ring (C103), the packet of properties (C152), hexadecimal ids and nonces (C01), ciphers and their nonces (C68) and the content (C99); primitives are parameters with laws | the parts are composed: the key found is the key made, the nonce read back is the nonce down to its slack, the counter of CTR mode cannot wrap since half of it starts at zero; partial: sizes that C99 excludes, key rings of protocol 1.0, special names; violated: one name given twice loses the file |
| C173 | the programs of C172, on any command line and files | the runs are taken apart step by step for the files that change; the key by C105; the chunks by C100, at the position behind the settings; forgeries: settings without HMACs in CFB mode are built from those in the file, whose digest has no key, and any content is accepted by induction on it; violated: HMACs can be switched off by whoever writes the file, and failures empty the output |
| C174 | wizard.c 112-205 and 263-305 and resource.c 511-530 over the dispositions, blocked and pending signals of a system with `sigaction` | histories by induction with the invariant that a handler is the program's or, for the default, the toolkit's; partial: the function only, no arrivals meanwhile, the tree of temporary files not in use; violated: flags and masks are replaced, blocked signals are unblocked, waiting ones are lost and end the program, a signal while the tree is locked hangs it |
| C175 | utilities/utility.c 84-147 and 180-513 over a file system given by what `stat`, `access`, `opendir` and `readdir` answer | arguments one by one; the parts of a path by C57, the match by C10, the order by C06 and the sort of the library; options by C51; partial: common arguments; violated: parameters of options are expanded, `/*` lists the working directory, brackets at the end are ignored, names clash with directories of the working directory, arguments vanish |
| C176 | utilities/cipher-info.c 119-286 and 347-371, content.c 625-674 over the reader of settings of C152 | arguments one by one, each file by C152; incomplete files by the reader of XML documents of C110; partial: files that `encipher` has written; violated: settings of one file are shown for the next, and the status is that of the last file that could be opened |
| C177 | secret.c 124-143, 196-198, 234-258, 312-334, 482-487, 547-553, keyring.c 108-168, 283-316, 752-826, string.c 179-200, 332-344, 857-867, random.c 165-264 and 289-307, cipher.c 134-206 and 703-744, aes.c 165-187 and 475-491, hmac.c, hash.c, sha2256.c: who owns which block | the blocks that are acquired are a permutation of those the secret owns and those that were there, kept by every step; contents by refinement of a record; partial: secrets without a passphrase's file; violated: its name is never given up, own strings are read after they were given up, keys and seeds remain |
| C178 | locale.c 969-997, string.c 1418-1478, string-private.h 32-45, with exact numbers in place of doubles | the reader of the C library on written digits by induction; prefixes by the table, any number, fraction, sign and rest; partial: decimal numbers without exponent; violated: prefixes that divide are neither applied nor read, `hi` and `P` |
| C179 | string.c 1668-1685 and 1712-1737; `vsnprintf` as its C library description | what is written by induction on the bytes; injective by the length in the header; partial: names of fewer than 4076 bytes; violated: longer texts write memory behind the array |
| C180 | exception-private.h 29-87 (without `WIZARDSTOOLKIT_Debug`), exception.c 98-105, 226-252, 282-375, 713-788, 813-887, client.c 114-122; the program's handlers are any functions that return or end the process | a new exception has what was reported, by the model of C171; handlers and names by induction on the calls; partial: messages that fit; violated: errors of the toolkit itself are never told, and some give a severity for the domain |

## Findings (the property is false of the code)

Generated from the docstrings of the theorems ending in `_violated` (each is a proof that the claim fails of the model).

* `C144_behind_violated`: C144 (violated): what is written directly behind a closing quote is lost, whatever it is.
* `C144_inside_violated`: C144 (violated): quotes inside an argument do not keep it together, whatever is between them.
* `C177_authenticate_violated`: C177 (violated). Once a passphrase's file was named, destroying the authentication leaves that name acquired.
* `C92_extent_violated`: C92 is false once `SetBlobExtent` is called: on a file that is at least as large as the extent it reports success, but has put a NUL over the last byte within the extent and has moved to the start of the file, so the next bytes written replace the first ones instead of following the last one. (The result of `fseek`, 0, is taken for the position.)
* `C93_unmapped_violated`: C93 is false: `SetBlobExtent` on a large file that is read refuses, but has unmapped the data by then; the next call that reads accesses memory that is no longer there.
* `C93_readonly_violated`: C93 is false: writing a byte to a large file that is read does not fail but writes to memory that is mapped for reading; to the same file below the limit, or when the map is not granted, `fwrite` is called.
* `C94_stale_violated`: C94 is false when `errno` is a stale `EINTR`: reading at the end of a file does not change `errno`, so the loop goes on for ever when a chunk is larger than what is left.
* `C160_dropped_violated`: C160 (violated) A library may drop the bytes that `fflush` could not write. Then every write call takes all of its bytes, the disk is full when `CloseBlob` flushes them, `fclose` finds nothing left to write and returns 0, and this result replaces the status: `CloseBlob` returns true, and the file is empty. For every text, however long the buffer, if it holds the text.
* `C160_chunk_violated`: C160 (violated) `WriteBlobChunk` goes on after a short count, without looking at the error. If the library drops what it could not write, it returns the full count although bytes taken before are gone, and `CloseBlob` returns true on every kind of stream.
* `C160_ignored_violated`: C160 (violated) `CloseBlob` does not tell of a write that failed before, even with a library that keeps what it could not write: it looks at the error indicator only if the status, which write calls do not set, says that there was an error. The utilities that make digests and keyrings ignore what `WriteBlobString` returns, and rely on `CloseBlob`: the end of the file is missing, and nobody is told.
* `C161_damaged_violated`: C161 (violated) A file that cannot be read from some place on is read as if it ended there: for every file, every place and every sequence of read calls, each call delivers what it would deliver for the shorter file, which is sound, and `CloseBlob` returns true for both, without looking at the error indicator. The utilities end their loops when a read delivers nothing, so they encipher, or compute the digest of, a shorter file, and tell nobody.
* `C162_exempt_violated`: C162 (violated) A command, a named pipe or a descriptor is opened, and whatever the client does, it is never closed: `OpenBlob` marks the stream as not to be closed. A command that reads from the toolkit never sees the end of its input, is not waited for, and nobody is told whether it succeeded.
* `C162_failed_violated`: C162 (violated) Each time a file cannot be opened, a semaphore is lost.
* `C162_extend_violated`: C162 (violated) When a file that is read through a map is to be extended, it is refused, but the map and the share of the map resource are released, and again by `CloseBlob`: other maps may have taken that place, and the toolkit grants more than its limit. For every large file.
* `C162_packed_violated`: C162 (violated) A compressed file is closed and opened again for decompression; if that fails, for want of descriptors or memory, `fileno` is called with NULL.
* `C139_slash_violated`: C139 (violated): if the text of a message has a slash in it, the messages behind it in the group get wrong tags. Here `Log/No` is not found: its text can be had as `Log/Yes/No`.
* `C139_outside_violated`: C139 (violated): of messages in no group only the first is found.
* `C139_long_violated`: C139 (violated): of a text of more than 255 bytes only the first 255 are found.
* `C139_blank_violated`: C139 (violated): white space before the `>` of a group, which XML allows, loses the last letter of its name.
* `C139_second_violated`: C139 (violated): in a file with two `<locale>` elements the messages of the second get tags that begin with a slash.
* `C67_chacha_short_key_violated`: C67 is false for short keys: `SetChachaKey` with a key of fewer than four bytes leaves the 16-byte key that was set before in force, so replacing a key by, say, an empty one changes nothing, and two ciphers given the same short key encipher differently.
* `C69_keystream_reuse_violated`: C69 is false: two messages enciphered one after the other under one cipher in CTR or OFB mode use the same keystream (`EncipherCipher` starts from the nonce each time and does not advance it), so the xor of the two ciphertexts is the xor of the two messages, whatever the key. The `encipher` utility calls `EncipherCipher` once for every chunk of a file.
* `C31_chacha_ecb_violated`: C31 is false in ECB mode: every 64-byte block of a message is xored with the same 64 bytes, so bytes 64 apart show the xor of the two message bytes. (In CBC mode the same keystream is added to the xor of a block and the ciphertext before it.)
* `C31_chacha_ctr_violated`: C31 is false in CTR mode: since a ChaCha "block" is just xored with one fixed keystream, byte `i` is xored with the public counter byte and the same key byte for all blocks, so bytes 64 apart show the xor of the two message bytes up to public values.
* `C31_chacha_ofb_violated`: C31 is false in OFB mode, and worse: every second block is xored with the public nonce alone, so anybody can read half of a message, whatever the key.
* `C176_carried_violated`: C176 is false of several files: what a file does not say is shown as the file before it says it. The same file is shown in one way if it is alone, and in another way behind a file that `encipher` has written: with the other file's mode, keys, hashes, entropy, chunks and version.
* `C176_missing_violated`: C176 is false of the status: if none of the files is there, nothing is shown, and the program exits with 0, whatever the message of the exception is.
* `C176_last_violated`: C176 is false of the status: a file that is refused, because it has been changed or is no enciphered file, is forgotten if a good file is behind it: the program exits with 0. In the other order it exits with 1.
* `C140_unnamed_violated`: C140 (violated): one `<configure>` element without a name, in whatever file, makes looking up any name that is not loaded before it crash.
* `C141_unnamed_violated`: C141 (violated): an entry without a name that is not hidden makes listing by any pattern but `*` and the empty one crash (for MIME types: an entry without a type).
* `C141_locale_violated`: C141 is false of messages: `GetLocaleList` leaves out the first message, whatever the messages are.
* `C141_mime_violated`: C141 is false of MIME types: `GetMimeList` sorts by the addresses of its strings, not by the strings. Here `b` is before `a`, however it is sorted.
* `C142_xdg_violated`: C142 is false where `XDG_CONFIG_HOME` is set: a file in `$XDG_CONFIG_HOME/WizardsToolkit` is not found, whatever its name, unless there is a file whose path ends in the name twice.
* `C142_long_violated`: C142 (violated): a directory whose path is longer than the limit is cut, and the name of the file is dropped: whatever is at the first 4095 bytes of the path is taken for the file.
* `C143_absolute_violated`: C143 (violated): `LoadConfigureCache` looks for an included file whose name begins with a separator beside the file that includes it, though `LoadMimeCache` does not: whatever the names are.
* `C143_root_violated`: C143 (violated): a file in the root directory includes files of the working directory.
* `C145_shorter_violated`: C145 is false of files that become shorter while they are read, if a call was interrupted before, at any time, or `errno` was left so: neither `FileToBlob` nor `ConfigureFileToStringInfo` ever returns, as the end of the file does not set `errno`.
* `C99_lost_violated`: C99 fails: let the chunk size be a multiple of the block size, and let the file end within the last block of a chunk, or just before it. The padding then fills the chunk, `EOFBlob` is not true after it was read, and the padding is not removed: the HMAC does not match, and `decipher` fails ("corrupt cipher chunk") without the last chunk. The data are lost. With the default settings this happens to one file in 16384. (The hypothesis says that the HMAC of the last chunk is not that of a string of another length.)
* `C99_padded_violated`: C99 fails without HMACs and compression: for the same sizes the padding stays at the end of the deciphered file, and `decipher` reports success.
* `C100_cut_violated`: C100 fails: an enciphered file that is cut between two chunks is accepted: `decipher` reports success, and the rest of the data are missing.
* `C100_swapped_violated`: C100 fails: the chunks of an enciphered file can be exchanged: `decipher` reports success, and its output has the chunks in the wrong order.
* `C101_chunks_violated`: C101 fails: in CTR and OFB mode, without compression, every chunk of a file is enciphered with the same stream of bytes, because the nonce is set again for every chunk: the difference of the enciphered bytes of two chunks is that of the bytes of the file.
* `C99_multiple_violated`: C99 fails for files that end with a chunk, in CTR mode without HMACs and compression: the block of padding behind the last chunk is deciphered with the counter of the first block of a chunk instead of that of the block behind it, and unless the two key streams happen to end with the same byte, what `decipher` delivers, if anything, is not the file but the file and more.
* `C05_copy_return_violated`: The documented return value ("the minimum of the source string length or the length parameter") is wrong as soon as the source does not fit with a byte to spare: a source that fits exactly reports one less than its length.
* `C149_escape_violated`: C149 (violated): if the path of a file has an ampersand, `digest -authenticate` looks at another file, whose path has `&amp;` in its place, and never at this one: whether it has changed goes unnoticed.
* `C149_blank_violated`: C149 (violated): if the path of a file has a blank, `digest -authenticate` looks at another file, whose path is what is before the blank, and never at this one: whether it has changed goes unnoticed. (What is behind the blank begins with a letter or digit other than `d` and `r`.)
* `C149_exit_violated`: C149 is false of what the program returns: 0, whatever has changed, as long as all files can be opened.
* `C150_forever_violated`: C150 (violated): if a digest file begins with white space, a byte order mark or anything else that is no graphic ASCII character, authenticating it never ends.
* `C150_overrun_violated`: C150 (violated): 4096 characters or more without white space and `>` are written over the end of the memory for a key.
* `C150_ignored_violated`: C150 (violated): behind `<?xml version="1.0" ?>`, with a blank before the question mark, nothing is read: whatever has changed, authenticating is done and says nothing.
* `C151_growing_violated`: C151 is false of files that grow while they are read: behind a short piece that ended the file a longer one is read into memory that is too small for it.
* `C163_behind_violated`: C163 is false for what follows a list of attributes whose last attribute has a default value (xml-tree.c:1878, 1750): the code ends the value with a NUL, does not step over it, and takes it for the end of the declarations. Whatever follows such a list — entities, further lists — is not read, and no warning is raised.
* `C163_name_violated`: C163 is false for entities whose name starts with a `:` or a character beyond ASCII (xml-tree.c:1762): the declaration and all that follow it are not read, and no warning is raised.
* `C163_again_violated`: C163 is false for a second list of attributes for one element (xml-tree.c:1832-1836): it is looked up by the last name in the declaration before it instead of by its tag, so it is stored apart, where no look-up finds it. Behind `<!ATTLIST a b NMTOKEN #IMPLIED><!ATTLIST a c CDATA "1">` elements `a` have no default for `c`.
* `C163_literal_violated`: C163 is false for literals with a `>` (xml-tree.c:1776, 1941): the declaration is taken to end there, and a `%` in the rest of the literal ends the reading. `<!NOTATION n SYSTEM "a>%b">` is well formed; the entity declared behind it is not known.
* `C163_bracket_violated`: C163 is false for declarations with `]>` in a comment or a literal (xml-tree.c:2282-2286): the declarations are taken to end there. `<!DOCTYPE a [<!-- ]> --><!ENTITY g "z">]><a>&g;</a>` is refused.
* `C154_keylength_violated`: C154 is false of the length of the key: whatever length is asked for, the key has no bits at all. (`strtod` finds no number in `-key-length`.)
* `C154_random_violated`: C154 is false of `-random`, which the usage describes: with whatever hash, it is an unrecognized option.
* `C154_compress_violated`: C154 is false of `-(de)compress`, which the usage describes: it is taken for the name of the file to read, and the file to read for the file to write. With the file to write behind it there are too many files.
* `C154_chunksize_violated`: C154 is false of chunk sizes below nothing: the conversion to `size_t` is undefined; nothing asks whether the argument makes sense.
* `C133_large_violated`: C133 is false of messages of 4 GiB and more: zip reports success for `4 GiB * (i + 1) + k` bytes, and what it has compressed are the first `k`.
* `C134_cut_violated`: C134 is false of lzma: a stream that is cut is restored as far as it goes, and success is reported.
* `C134_short_violated`: C134 is false of lzma: given too small a size, it restores only so much of the message, and reports success.
* `C123_lost_violated`: C123 is false for `CatchException`: it delivers the log and releases the semaphore before it clears the log, and what another thread throws in between is cleared without having been delivered. Both calls have returned, the log is empty, no handler was called.
* `C123_self_violated`: C123 is false for an exception that inherits from itself: `InheritException` has its semaphore and waits for it in `ThrowException`, forever, whatever the schedule.
* `C123_cross_violated`: C123 is false for two exceptions that inherit from each other in two threads: each has the semaphore of its own source and waits for that of the other, forever, whatever the schedule.
* `C52_fatal_lost_violated`: C52 is false: a fatal exception followed by a milder one is not delivered to the fatal handler, because `CatchException` (exception.c:245) looks at the severity of the exception, which is that of the last one, instead of the element's; then the log is cleared. For every log that ends in something milder.
* `C52_fatal_wrong_violated`: C52 is false: when the last exception is fatal, the first one is delivered to the fatal handler whatever it is; the default handler then ends the process with that one's reason and severity (exception.c:323-335), and the fatal exception is never reported.
* `C52_repetition_violated`: C52 is false: an exception whose reason differs from the last one's in letter case only is not recorded, though it is not a repetition. For every letter.
* `C175_parameters_violated`: C175 (violated) Parameters of options are expanded too, although the code says they are not: the number of parameters of an option is never found (`C51_command_violated`). For every option, if its parameter is a pattern that a file fits, the parameter is replaced by the files: a key or a passphrase given as `-key` with a `*` or `?` in it is lost.
* `C175_root_violated`: C175 (violated) A pattern in the root directory stands for files of the working directory: if one of those fits, `/*` becomes exactly what `*` does.
* `C175_bracket_violated`: C175 (violated) Brackets at the end of a pattern are ignored: if a file fits what is before them, `*.[ch]` becomes exactly what `*.` does.
* `C175_hidden_violated`: C175 (violated) A file is left out if the working directory has a directory of the same name: whether a name is one of a directory is asked of the working directory, not of the directory that is listed.
* `C175_vanishes_violated`: C175 (violated) An argument vanishes if its pattern fits something in another directory, such as a directory there, but no regular file: the program goes on with one argument less.
* `C175_exists_violated`: C175 (violated) A file in another directory whose own name has brackets, stars or question marks cannot be named: although it exists its name is taken as a pattern, because the file is looked for in the working directory. If that pattern fits other files and not the name itself, the program gets those instead.
* `C175_empty_violated`: C175 (violated) An empty argument makes the program read memory that was never written, and beyond the buffer if there is neither a NUL nor a dash in it.
* `C180_silent_violated`: C180 (violated). A fatal error of the toolkit is never told: it is thrown with the severity of no exception, so that no handler is called, neither the program's nor the standard one, and nothing is displayed, whatever the domain, the error and the handlers.
* `C180_domain_violated`: C180 (violated). Running out of memory in the SHA-2 digests, the compressors `zip` and `lzma` and the cipher Serpent is reported with a severity in the place of the domain: the status tells the domain of parsing for the compressors (which are of the domain of entropy, 2), and no domain at all for digests and Serpent.
* `C40_read_end_violated`: C40 is false at the end of a file. `ReadFileChunk` (file.c:623-628) tells the end of the file from an interruption by `errno`, but a `read` that returns 0 does not set it. If any earlier call in the thread left `EINTR` there, or the first call of this chunk was interrupted, a request for more bytes than are left never returns, for every file, every request and every schedule of short and interrupted transfers.
* `C41_truncated_violated`: C41 is false when `errno` is a stale `EINTR`: reading a truncated integer never returns.
* `C145_overrun_violated`: C145 is false of streams: if two calls of `read` in a row deliver more than 8193 bytes together, `FileToBlob` writes outside the memory it allocated, whatever the bytes are. The memory has room for the second piece only before the first is counted.
* `C145_interrupted_violated`: C145 is false of streams: once a call was interrupted, at any time, `FileToBlob` never returns the stream: `errno` still is `EINTR` at the end of the stream, and it goes on reading (or has written outside its memory before). The same if `errno` was left so by something else.
* `C145_failed_violated`: C145 is false of streams: if reading fails, what was read before is returned as if it were all, whatever it is, and nothing is reported.
* `C167_race_violated`: C167 (violated): with OpenMP, two threads that start the toolkit at the same time: both find the mutex not initialised, and the second initialises it again.
* `C167_down_violated`: C167 (violated): with OpenMP, `WizardsToolkitTerminus` destroys the mutex of the semaphores after it let the other threads go on, which may hold it by then.
* `C167_configure_violated`: C167 (violated): whatever the threads call and however they are scheduled, when `WizardsToolkitGenesis` was called at least once, then after the last call there is a semaphore that was not given back: `WizardsToolkitTerminus` does not end the configure component.
* `C10_glob_empty_pattern_violated`: The empty pattern matches every text, not only the empty one.
* `C10_glob_brace_violated`: Outside the fragment: alternatives fail when anything follows the brace (`{a,b}c` does not match `ac`), and `[a-` or `{\` make the matcher read beyond the end of the pattern, for every non-empty text.
* `C10_glob_overread_violated`: An unterminated bracket range `[a-` and a brace group ending in a backslash read past the end of the pattern, for every non-empty text.
* `C73_sha224_violated`: C73 The SHA-224 of the library is not the published SHA-224: `TransformSHA2224` (sha2224.c:562-568) adds only seven of the eight working variables to the accumulator, so from the second block on the digest is wrong. Fifty-six zero bytes are the shortest kind of such a message.
* `C74_sha3_violated`: C74 None of the four SHA-3 functions of the library is that of FIPS 202: the message is followed by the padding of the original Keccak submission instead of the bits 01 and the padding; the digests of the empty message differ.
* `C34_hmac_sha3_violated`: C34 HMAC with SHA-3 is not the published one even if the underlying Keccak is taken for the hash function: the key is padded to 64 bytes, the rate (136 bytes for SHA3-256) being the block size; empty key and empty message.
* `C75_sha1_long_update_violated`: C75 A string of 4 GiB or more given to one UpdateHash call of SHA-1 is hashed with its length modulo 4 GiB in the padding (sha1.c:604-605 keeps the length in an unsigned int): what goes through the compression function is not the padded message of FIPS 180-4.
* `C75_sha256_long_update_violated`: C75 The same for SHA-256.
* `C76_sha3_update_hangs_violated`: C76 UpdateHash does not return: once a SHA-3 object holds bytes of an unfinished block, a string whose length is a multiple of 512 MiB makes UpdateSHA3 (sha3.c:797-822) loop for ever, the number of bits still to go being cut to 32 bits, all zero. The loop does not end within any number of turns.
* `C158_growth_violated`: C158 (violated) A put for which the larger table cannot be allocated reports failure, but the binding is in the map: a caller that then releases its key and value has left dangling pointers there, and `DestroyHashmap` relinquishes them too. Here with the first put into a map of capacity 2.
* `C158_element_violated`: C158 (violated) A put that rebinds a key and has no memory for the new element reports failure, but the old binding is gone: its key and value are relinquished, a lookup finds nothing, and the map still counts an entry.
* `C158_full_violated`: C158 (violated) Also with all the memory it asks for: a map of the second largest size whose keys have one hash takes 4194299 keys; the put of the next one reports failure, but a lookup finds it.
* `C17_overwrite_violated`: C17 is false on overwriting: whenever a put rebinds a key, the counter goes up although the number of bindings does not change.
* `C17_overwrite_example_violated`: A concrete history: the same key put twice leaves one binding and a counter of two.
* `C62_lookup_violated`: C62 is false for other keys: looking up another key of the same bucket moves the iterator. In a map of the keys 1, 2, 3, the second key is returned twice; looking up a key that is not in the map ends the iteration early.
* `C60_gap_violated`: C60 fails. A segment is 96 bytes larger than the request, rounded up to 2 MiB, but the request itself grows by up to 55 bytes: for a size that lies 96 to 119 bytes below a multiple of 2 MiB the new segment is too small for the block. `AcquireWizardMemory` then returns NULL although the system has granted the memory (which stays in the pool).
* `C60_resize_violated`: C60 fails. For the same sizes `ResizeWizardMemory` ends the process with a failed assertion although the system has granted the memory.
* `C95_wrap_violated`: C95 fails. The rounding up wraps around: for the largest sizes `AcquireWizardMemory` returns a block of 32 bytes, and no memory that was granted goes so far.
* `C95_assert_violated`: C95 fails. For the sizes just below these the size becomes zero, and an assertion ends the process.
* `C95_empty_violated`: C95 fails. For another range of sizes the length of the segment becomes zero: the pool asks the system for no bytes, gets a pointer to no bytes, and writes there.
* `C97_forgotten_violated`: C97 fails. When the pool has used its 1024 segments the list of unused ones is empty, which `AcquireWizardMemory` takes for a pool that was never set up: it clears the pool. The pool then has no free block, although nothing is allocated and two gigabytes were granted, and `DestroyWizardMemory` gives nothing of that back.
* `C98_zeros_violated`: C98 fails. The documentation says that `RelinquishWizardMemory` zeros the memory. It does not: every byte of the block but the first sixteen stays in memory as it was.
* `C80_keystream_violated`: C80 is false: all keys are enciphered with the same key stream, because `SetKeyInfo` sets the same nonce every time (key.c:324). After every history, for every two ids that hold keys, the exclusive or of what the memory holds for them is that of the two keys: whoever reads the memory and knows one key has all the others, up to the length of the known one.
* `C45_nonce_violated`: C45 is false: a wrong nonce is returned as a success. `ExportKeyringKey` (keyring.c:306-317) compares the id before it looks at the status of the reads. If the process died inside the nonce of the record, exporting the interrupted key returns True with the part of the nonce that was written and zeros.
* `C45_import_violated`: C45 is false: after a crash that left four or more bytes of a record but not all of it, exporting any id that the ring does not hold, and so importing any new key, aborts the program: the error path passes the destroyed file to `GetFilePath`, the assertion of which fails (keyring.c:276-282, file.c:508). The key ring never accepts another key.
* `C45_lost_violated`: C45 is false: after a crash that left one or two bytes of a record, importing a new key returns True, but the record is appended after the stray bytes and exporting the key aborts the program.
* `C45_header_violated`: C45 is false: if the process died before the header of a new key ring was complete, in particular right after the file was created, every export from it and every import into it aborts the program.
* `C78_protocol_violated`: C78 is false: `ImportKeyringKey` (keyring.c:487-489) writes the protocol of the object and always a time stamp of 64 bits, but a record of protocol 1.0 is read without one. An object gets protocol 1.0 when a record of an old key ring is exported into it; imported from there into another key ring, the record is corrupt: exporting any id the ring did not hold before, the one just imported included, aborts the program, if the low 32 bits of the time stamp exceed the size of the record.
* `C169_option_violated`: C169 (violated) The value of an option is listed as if it were a key ring: `-debug word` and `-log format` make the program do what the word or the format alone would have made it do.
* `C169_export_violated`: C169 (violated) No export comes to its end: whatever the arguments, the files and the key are, if one of the arguments but the last asks for an export, or only reads so behind its first byte, the program does not return; the argument vector is given up twice, if nothing undefined has happened before.
* `C169_ring_violated`: C169 (violated) A key ring cannot be named for an export: with `-export id ring ... out`, the id is looked up in the default key ring, and then NULL is looked up for the name of the key ring, which is undefined.
* `C169_same_violated`: C169 (violated) A key ring that is also the output is emptied before it is read, and the program dies of what is left.
* `C168_corrupt_violated`: C168 (violated) A damaged key ring is not reported: wherever a record behind the mark is cut off, and whatever stands in place of a mark, the path of a file object is asked for after it was given up, and the program dies of it.
* `C168_missing_violated`: C168 (violated) A key ring that is not there, or cannot be opened, counts as listed: the status is True and nothing is written.
* `C122_openmp_violated`: C122 is false for the OpenMP build when threads call the library before it was started: `active_mutex` is tested and set without any lock, so that two threads may both initialise the mutex, the second while the first has it. Both then make a semaphore, each takes the lock of its own, and both load the cache: the first cache and the first semaphore are lost, and the two threads were inside together.
* `C14_insert_middle_violated`: C14 is false: for every list with room and every index strictly inside it, the call reports success, but the sequence of values is unchanged while the count grows by one (so the count is wrong), the new element is leaked, and removing "the last element" by its index then dereferences a null pointer.
* `C15_replace_iterator_violated`: A sorted insertion that replaces an element other than the first frees it while an iterator standing there still points to it: the next iteration step reads freed memory. This holds for every list, value and position.
* `C15_replace_head_leak_violated`: A sorted insertion that replaces the first element leaks it: it stays allocated although it is no longer an element of the list.
* `C06_equal_up_to_case_non_ascii_violated`: Without the ASCII hypothesis the fallback table is not plain ASCII folding: the distinct bytes 0xc1 and 0xe1 compare equal, while 0xc5 and 0xe5 (same case pair in Latin-1) do not.
* `C139_kinds_violated`: C139 (violated): errors of hash maps and logs have no tag of their own (two cases are missing), so that their messages are looked up without kind and level, whatever the tag: they get the message of no severity.
* `C42_failed_violated`: C42 is false: an acquire that fails removes the lock of the process that has it. `AcquireFileInfo` (file.c:326-329) calls `DestroyFileInfo` when the lock could not be acquired, which removes the lock file whoever owns it (file.c:443, 813). One process has the file open, a second one gives up after ten attempts, and a third one acquires the file.
* `C42_nested_violated`: C42 is false: a thread that has the file open acquires it again (file.c:177-182), and when it releases one of the two the lock is gone; then another process acquires the file. No acquire fails here.
* `C42_takeover_violated`: C42 is false: two processes see the lock of a dead one; the first removes it and then acquires the file; the second, still about to remove the lock it saw, removes that of the first (file.c:196-206), and a third process acquires the file.
* `C79_first_violated`: C79 is false: a lock file left by a process that died is removed, but the acquire that removes it fails all the same: the `continue` that `i--` prepares is a `break` (file.c:200-205). For every state with such a lock, with no other thread moving.
* `C125_unlimited_violated`: C125 is false of the limit "unlimited" (the largest number, log.c:1620): the first event to a file crashes. (The product overflows to a negative number, and 0 is more.)
* `C125_bound_violated`: C125 is false of generations: whatever the limit and the number of generations (2000 and 3 in log.xml), the files of all generations together grow beyond every bound. (Files of earlier generations are appended to, not replaced.)
* `C125_forged_violated`: C125 is false of which events there were: texts are not escaped, so that one event can pass for two (forged entries).
* `C126_trailing_violated`: C126 is false of lists that end in a comma: every handler is lost.
* `C126_unknown_violated`: C126 is false of lists with an unknown name (the others are lost too) and of names that only begin like a handler.
* `C126_unknown_lost_violated`: C126 is false of a list with an unknown name: the handler named before it is lost as well.
* `C126_listed_violated`: C126 is false of the list that `ListLogInfo` prints: the handlers of a mask are named rightly only for "console", "file" and "event" with "stderr": a log to "stdout" is listed as "debug".
* `C127_lookup_violated`: C127 is false of names: no log has a name, and looking for one waits for ever (for the semaphore that the same thread holds).
* `C127_list_violated`: C127 is false of patterns: listing logs by any other pattern crashes (unless all are hidden).
* `C127_previous_violated`: C127 is false of the mask it returns: the new one, not (log.c:1719-1720) the previous one.
* `C124_module_violated`: C124 is false for a source file without a name: `%m` looks at the byte before it.
* `C124_long_violated`: C124 is false of long texts: the limit given to `CopyWizardString` is the size of the whole buffer, not of what is left of it. Every function name of 4096 bytes more than the event runs over the end.
* `C124_xml_violated`: C124 is false of the XML format: of every entry of 4096 bytes more than the event or longer the end is cut off (its end tags with it).
* `C124_noname_violated`: C124 is false without a name for the log file: a failed assert.
* `C49_refused_violated`: C49 is false: when the memory limit refuses the request and less than the requested amount is in use, the process aborts: the refused amount is given back although it was not taken (memory.c:500). For every state of the system and of the other counters.
* `C49_refused_books_violated`: C49 is false: when the limit refuses the request while more is in use, the refused amount is given back all the same; after the acquisition succeeds with a mapping and is released, the amount of memory in use is too small by the whole request.
* `C49_file_violated`: C49 is false for files: an acquisition that ends up in a temporary file counts one file, and its release does not take it back (resource.c:843-867): after as many of them as the limit allows, no temporary file can be had.
* `C81_default_violated`: C81 is false: the default limit of memory is the number of mebibytes of the machine, taken for bytes (resource.c:915, 922). On every machine with pages of 4096 bytes it is at most a 2^20-th of its memory (rounded), and asking for that many bytes of virtual memory aborts the process.
* `C131_mask_violated`: C131 is false of masks: they mask the value of the rule, not the content. A byte that is the value under the mask, but not the value, is not found.
* `C131_tail_violated`: C131 is false of rules about the last bytes of the content: a rule about a byte asks for four.
* `C131_pattern_violated`: C131 is false of types with only a pattern (as most of mime.xml are) when no file name is given: any content whatever is of them.
* `C131_empty_violated`: C131 is false of empty content: whatever the name of the file, its type is the first there is.
* `C131_offset_violated`: C131 is false of a negative offset (`offset="-1"`): the first lookup to reach it fails an assertion.
* `C132_backslash_violated`: C132 is false of a magic number that ends in a backslash: it is read past its end.
* `C132_digits_violated`: C132 is false of an octal before an octal digit (`\\1011` is not `A1`), of `\\8`, which is a zero and an eight, and of `\\a`, which is not the bell.
* `C173_properties_missing_violated`: C173 (violated) A run of `decipher` whose file of properties is not there fails, and has emptied its output.
* `C51_negate_violated`: C51 is false for the exclamation mark: `!word` adds the value of the word instead of removing it (option.c:473 looks at the token, from which the mark has been skipped in 459). For every table and word, after every list of items that includes it.
* `C51_command_violated`: C51 is false for the table of commands: of its mnemonics none is found, because they begin with a sign and the sign is skipped (option.c:455) before the token is looked up. `ExpandFilenames` (utilities/utility.c:215) asks for them to learn how many parameters a command option has, and so expands the parameters as file names.
* `C51_empty_violated`: C51 is false for the empty text (and one of spaces and commas): the search for dashes starts behind the NUL of the empty token (option.c:481), in memory that was never written; with nothing but other bytes there it reads past the end of the buffer.
* `C152_chunks_violated`: C152 is false of chunks of 4 GiB or more: `decipher` reads the length of the chunks modulo 4 GiB, as another length than `encipher` has recorded and used.
* `C152_name_violated`: C152 is false of names of files that close their quotes: a file whose path ends in `"><b/>` is enciphered, but `decipher` never ends with what `encipher` has written.
* `C153_forever_violated`: C153 (violated): deciphering a file that begins with white space, a zero or anything else that is no graphic ASCII character never ends.
* `C153_overrun_violated`: C153 (violated): deciphering a file that begins with 4096 letters and digits or more writes behind the end of its memory for a key.
* `C136_eof_violated`: C136 is false at the end of the input: if the terminal is closed before anything is entered, the empty passphrase is returned as if it had been entered twice.
* `C136_error_violated`: C136 is false if reading fails: `count` is overwritten by the result of writing the newline, so what was read before the error is returned as a passphrase that was entered.
* `C136_ignored_violated`: C136 is false if a signal the program ignores interrupts reading: what was read before it is returned as a passphrase that was entered.
* `C136_long_violated`: C136 is false for lines of 4096 bytes, which the prompt invites: only 4095 are kept, so two passphrases that differ in the last byte are accepted as the same, and what is returned is neither.
* `C137_ttou_violated`: C137 is false for SIGTTOU: its disposition is saved but never restored, so that after an undisturbed passphrase the program's own disposition is lost, and a program that is to stop at SIGTTOU no longer does.
* `C138_stdin_violated`: C138 is false for a program started with its standard input closed: the terminal is then opened as descriptor 0, taken for the standard input, and the passphrase is echoed while it is entered.
* `C57_absolute_violated`: C57 is false of absolute paths: a file in the root directory has the same head and the same tail as a file of that name in the working directory (the head of `/x` is empty, not `/`), so joining the two cannot give the path back.
* `C57_hidden_violated`: C57 is false of hidden files: for a name that begins with its only dot the root is empty and so is the extension; the name is in neither of them.
* `C57_query_violated`: C57 is false of names with a question mark: the extension ends there, so root and extension do not give the path back.
* `C57_underrun_violated`: C57 is false of paths that are only a subnode: once `[...]` is cut off, the text is empty, and asking for the root reads the byte before the caller's buffer.
* `C57_overread_violated`: C57 is false of long paths on a filesystem: to remove the filesystem as many bytes are moved as the whole path has, starting behind the colon, so bytes behind the caller's buffer are read when filesystem and path together do not fit in it.
* `C88_hidden_violated`: C88 is false of hidden files: the whole name is taken for an extension and is replaced, so two different files get the same name.
* `C179_long_violated`: C179 (violated). A name of 4096 bytes or more makes `PrintStringInfo` write bytes from behind the array that the text is formatted in: as many are written as the text has, although only those that fit were formatted. `PrintWizardString` does so with every text of more than 4096 bytes, and ends one of exactly 4096 with a NUL.
* `C173_decipher_fails_violated`: C173 (violated) A run of `decipher` that fails has emptied its output: if the passphrase can not be read, or is not the right one, or the settings are refused, what the file held before is lost.
* `C173_encipher_fails_violated`: C173 (violated) A run of `encipher` whose passphrase can not be read fails, and has emptied its output (encipher.c:672-675).
* `C173_downgrade_violated`: C173 (violated) The HMACs of an enciphered file protect nothing: whether there are HMACs is said in the settings in front of the content, whose digest needs no key. Whoever writes the file can replace these settings by the same ones without HMACs, and the content by anything they like: `decipher`, with the right passphrase, reports success and writes as many bytes.
* `C172_same_name_violated`: C172 (violated) `encipher` opens what it is to read and then empties what it is to write (encipher.c:668-675) without asking whether they are the same file: given one name twice it reports success, and what it leaves does not depend on what the file held. The content is lost, with no way back from what is left.
* `C172_same_name_decipher_violated`: C172 (violated) So does `decipher` (decipher.c:661-668): given the name of an enciphered file twice it fails, and the file is empty afterwards, whatever it held.
* `C39_seed_violated`: C39 The nonce and the reservoir of a seeded generator are all zeros whatever entropy was gathered: AcquireRandomInfo copies the digest of an HMAC that has been given its key but has not been finalized (random.c:208-224).
* `C39_first_entropy_violated`: C39 The first of the two entropies gathered has no effect at all: for any two of them every later request gives the same bytes.
* `C77_pseudo_violated`: C77 GetPseudoRandomValue returns exactly 1.0, which is outside the documented interval [0.0, 1.0), in every state whose first and last seed add up to one of the 4096 greatest words; there are such states among the non-zero ones.
* `C77_value_violated`: C77 GetRandomValue returns exactly 1.0 for each of the 1023 keys from 2^64 - 1024 on that its loop lets through: the conversion of the key to a double rounds up to 2^64.
* `C171_kind_violated`: C171 (violated) An error that is reported to a new exception is logged as a warning, and a warning that is reported after an error is logged as an exception. So with the event mask `exception` the first error is not in the log.
* `C171_long_violated`: C171 (violated) A reason that fills the buffer leaves no room for the place: of two reports with such a reason from any two places only the first is recorded, without its place, and without the end of its reason.
* `C114_protocol_violated`: C114 is false for protocol 1.0: an object that has read a reservoir of protocol 1.0 keeps this number and saves it, but with a time stamp, which protocol 1.0 does not have. The next read takes the low half of the time stamp for the length of the entropy and finds nothing, for every time stamp whose low half is larger than the file (random.c:717-726 and 1004-1006).
* `C114_status_violated`: C114 is false if the disk is full: when every write fails, the file is left as it was and yet the save reports success (random.c:1013-1019), so AcquireRandomInfo() does not notice.
* `C115_header_violated`: C115 is false: for every file that does not begin with the two digests of the header, or ends before the length of the entropy, the read does not return: it reports the damage with the path of the file, after it has destroyed the file object, and an assertion fails (random.c:690-695, 705-712, 728-733). AcquireRandomInfo() reads the reservoir, so no generator can be made until the file is removed by hand.
* `C116_first_violated`: C116 is false for the first save: if the process dies after any number of bytes before the end of the length of the entropy, every later read of the reservoir fails an assertion (random.c:692-694, 709-711, 730-732).
* `C48_request_violated`: C48 is false for large requests: whatever the limit, a request with which the amount in use reaches 2^63 (and stays below 2^64) is granted, because the sum is compared as a signed number (resource.c:428).
* `C48_limit_violated`: C48 is false for large limits: under a limit of 2^63 or more that is not "unlimited" no request below 2^63 is ever granted, because the limit is compared as a signed number (resource.c:428).
* `C47_area_violated`: C47 is false for the area resource: a refused request replaces the amount in use by the amount refused, and a release replaces it by the amount released (resource.c:410, 758).
* `C104_added_violated`: C104 is false: `GenerateSecretKey` "returns WizardTrue if a key is generated and successfully added to the secret key ring", but the status of the import is overwritten by the constant (secret.c:332, 335), and the import itself only logs a failed write (keyring.c:501-506). On a full disk the call returns True with the id of a key the file does not hold: the content that is then enciphered with it (utilities/encipher.c:684-692) can not be deciphered again.
* `C106_empty_violated`: C106 is false for keys of less than eight bits: every key drawn is empty (secret.c:314-315), so once its id is in the key ring, as it is after the first call, `GenerateSecretKey` never returns. `encipher -key-length` asks for such keys: it parses the name of the option in place of its value (utilities/encipher.c:407-408) and gets 0.
* `C107_stream_violated`: C107 is false: the nonce is drawn once, when the object is made (secret.c:137), and the cipher key is the passphrase alone (secret.c:326-328). Two keys generated by one object under one passphrase are enciphered with the same stream: the difference of the two records in the file is the difference of the keys.
* `C108_stamp_violated`: C108 is false for every further key: the search for its id (secret.c:321) reads protocol and time stamp of each record it passes into the object that is then imported (keyring.c:266-273), so the record of the new key gets the protocol and the time stamp of the last record of the key ring, not its own.
* `C109_protocol_violated`: C109 is false for a key ring whose last record is of protocol 1.0: the new record takes over the protocol, is written in the form of protocol 1.1, and the key ring is corrupt; authentication with the id just generated aborts the program, if the low 32 bits of that record's time stamp exceed the size of the new one.
* `C177_passphrase_violated`: C177 (violated). Once a program has named a file with the passphrase, destroying the secret leaves one block acquired for ever, which holds the name, whatever was done: `DestroySecretInfo` does not destroy it.
* `C177_remains_violated`: C177 (violated). Every secret key that was generated or recovered remains in memory that was given up, whatever was done afterwards, although `DestroySecretInfo` and `DestroyStringInfo` are said to zero the memory: whoever acquires that memory next finds it.
* `C177_own_violated`: C177 (violated). To set the id of a secret to the id that it has, as `GetSecretId` gives it, reads memory that was given up, whatever was done before.
* `C177_seed_violated`: C177 (violated). A random generator is given up wholly, but of its seed of four words only the first is reset: the other three remain in memory that was given up.
* `C30_serpent_ecb_violated`: C30 is false for Serpent in ECB mode: the cipher interface advances 32 bytes per block while the block function transforms 16, so half of every message is left in the clear, whatever the key.
* `C30_serpent_ctr_violated`: C30 is false for Serpent in CTR mode: bytes 16 to 31 of every 32 are xored with the public counter block only.
* `C30_serpent_ofb_violated`: C30 is false for Serpent in OFB mode: bytes 16 to 31 of every 32 are xored with the public nonce only.
* `C118_remove_last_violated`: C118 (violated) Two threads take the last value out of a list with one value: both find that there is one before either takes the semaphore. The second follows a NULL pointer.
* `C118_last_violated`: C118 (violated) A thread asks for the last value while another takes it out: it follows a NULL pointer.
* `C118_get_violated`: C118 (violated) A thread asks for the value at index 0 while another takes it out: it follows a NULL pointer.
* `C118_capacity_violated`: C118 (violated) Two threads append to a list of capacity 1: both find room before either takes the semaphore, and the list gets two values. From then on the test for a full list (`elements == capacity`) never holds, and the list takes any number of values.
* `C120_lookup_violated`: C120 (violated) A removal has, for a moment, no root, and the test before the semaphore is taken (splay-tree.c:887) finds no root: thread 1 looks up key 2, which thread 0 has put and nobody removes, and is told that it is not there.
* `C120_get_violated`: C120 (violated) Between the test and the semaphore another thread can remove the last entry: `GetValueFromSplayTree` then reads the key of a root that is not there (splay-tree.c:890-897).
* `C120_iterate_violated`: C120 (violated) Two threads that iterate: one takes the last entry between the test and the semaphore of the other, which then splays the tree at the NULL key (splay-tree.c:777-789) and starts over: after three calls the iteration over two entries still goes on.
* `C178_small_violated`: C178 (violated). Prefixes that divide, which the table has, are neither applied nor read: `5m` is 5, whatever the number and whatever follows; `-chunksize` then takes the number as it is and ignores the rest.
* `C178_odd_violated`: C178 (violated). With `hi`, which is no prefix, a number is multiplied with two to the power of twenty thirds, and a `P` after a prefix is taken for the unit.
* `C174_flags_violated`: C174 (violated) Starting the toolkit replaces what belongs to the handlers of a program: a function that expects `siginfo_t` is called without one afterwards, calls that the signal interrupts are not restarted any more, and signals that were to be blocked while it runs are not (wizard.c:134-142, 199-200).
* `C174_blocked_violated`: C174 (violated) Starting the toolkit unblocks signals that the program has blocked (wizard.c:147).
* `C174_lost_violated`: C174 (violated) If a signal that the program handles itself waits, being blocked, when the toolkit is started, or arrives between the two calls that set and reset its handler (wizard.c:196-200), the handler of the toolkit gets it: the program ends, and its own handler does not run.
* `C174_locked_violated`: C174 (violated) A signal that arrives while the tree of temporary files is in use finds its semaphore locked: its handler waits for the code that it has interrupted. The program does not end, its temporary files stay, and the signal is blocked from then on.
* `C174_failed_violated`: C174 (violated) If `sigaction` fails the signal stays blocked (wizard.c:133, 145-146).
* `C156_iterator_violated`: C156 (violated) After every history: once the iterator is reset, deleting the smallest key (here `b.1`) relinquishes that key and leaves the iterator on it; if another key is in the tree, the next call of `GetNextKeyInSplayTree` hands the relinquished key to the comparison.
* `C156_same_key_violated`: C156 (violated) Putting a key pointer that is already in the tree, to change its value, relinquishes the pointer, which stays in the tree as the key: the next comparison reads it, and destroying the tree relinquishes it again.
* `C04_concatenate_violated`: C04 is false: the concatenated string never contains the source's bytes. Appending any non-empty string of at most 128 bytes to a freshly built byte string leaves zeros where the appended bytes should be.
* `C04_concatenate_overrun_violated`: C04 is false, memory safety: once the total reaches 126976 bytes, appending more than 4096 bytes writes past the end of the buffer.
* `C170_alias_violated`: C170 (violated) A variable is copied from, or appended, a part of its own string. If the allocator moves the block, the bytes are read from memory that was given up. This holds for every text, every place before its end and every allocator.
* `C170_overlap_violated`: C170 (violated) A variable is copied from a place in the first half of its own string: even if the block stays, the bytes are copied over themselves.
* `C170_null_violated`: C170 (violated) NULL is appended to a string: its length is taken of NULL, though NULL may be copied, and may be appended to NULL.
* `C12_strip_empty_quotes_violated`: An empty quoted string is not stripped to nothing: `""` becomes `"`; and an opening quote followed by blanks leaves one blank.
* `C12_strip_quoted_idempotent_violated`: On quoted text stripping is not idempotent.
* `C09_substitute_empty_violated`: With an empty search string the loop never ends: `strchr` keeps finding the terminating NUL, the text grows by the replacement each round, and no amount of fuel suffices.
* `C147_trash_violated`: C147 is false: asked to remove a temporary file, `RelinquishUniqueFileResource` always returns False, although it does remove it.
* `C147_keep_violated`: C147 is false: asked to keep a temporary file, `RelinquishUniqueFileResource` always removes it, and returns True.
* `C147_twin_violated`: C147 (violated): relinquishing a path that is not that of a temporary file, but differs from one in the case of letters only, removes the temporary file.
* `C148_limit_violated`: C148 is false once the limit of files is reached: `AcquireUniqueFileResource` returns -1 but leaves the file it created, and nothing ever removes it. (It tries to remove the path of the directory instead.)
* `C146_exhausted_violated`: C146 (violated): relinquishing a temporary file does not give back its place: `used` goes up with every file acquired and never down, and when it reaches the limit no temporary file can be acquired, although there are none.
* `C146_twin_violated`: C146 (violated): if a new temporary file gets a name that differs from that of another in the case of letters only, the other file is removed while it is in use.
* `C146_directory_violated`: C146 (violated): if what was asked for is no directory, or its path has more than 4071 bytes, the file is silently made in the current working directory: its path has no slash.
* `C128_restart_violated`: C128 is false of restarting a timer that runs: it goes on counting from the earlier start.
* `C128_reset_violated`: C128 is false of `ResetTimer`: the timer still shows the time before, and resuming adds the time at which it was started.
* `C128_reset_stopped_violated`: C128 is false of `ResetTimer` for a timer that is stopped, too: it keeps showing the time it was stopped at.
* `C129_minutes_violated`: C129 is false in every zone that is not a number of whole hours from UTC, such as those of India: the timestamp of every instant denotes another.
* `C130_east_violated`: C130 is false ahead of UTC: a timestamp read in the very zone it names loses its seconds and comes out `h` hours early; at UTC, where the library writes `+00:00`, it loses its seconds.
* `C130_elsewhere_violated`: C130 is false of timestamps of another zone: read at UTC, one written `h` hours behind UTC comes out `2h` hours early, and the minutes of the zone do not count.
* `C130_huge_violated`: C130 is false of numbers an `int` cannot hold: reading them is undefined.
* `C11_token_violated`: An unterminated parenthesis makes the tokenizer read beyond the end of the text; and a token `url(`, reachable for instance by quoting, makes it write before the token buffer.
* `C72_key_bytes_ignored_violated`: C72 is false: bytes 16 to 22 of a Twofish key of 17 to 23 bytes, and bytes 24 to 30 of one of 25 to 31 bytes, have no influence whatever: two keys that differ only there are the same cipher.
* `C72_short_key_violated`: C72 The published rule for short keys (append zero bytes) is not followed: the key of no bytes does not give the cipher of the all-zero 128-bit key.
* `C56_terminator_violated`: C56 is false: for every non-empty text in UTF-16 the terminating NUL is written behind the memory of the converted text, which has just been cut to the length of the text (xml-tree.c:1388-1390).
* `C56_document_violated`: C56 is false for documents: `NewXMLTree` measures the document with `strlen` (xml-tree.c:2030), so a document in UTF-16 ends at the first byte that is zero. If its first character is below 256, as the `<` of every XML document, nothing is left: the conversion returns NULL, reported as a failed memory allocation.
* `C56_unpaired_violated`: C56 is false for surrogates that are not paired: a lone surrogate takes the next character with it, whatever that is. For every lone surrogate and every character of one code unit after it, a single character is written.
* `C84_empty_violated`: C84 A reference to an entity with an empty text loses the end of the content: as many bytes as the reference is long. (The buffer for the new text is computed from the new length, but the old text is copied into it.)
* `C85_end_violated`: C85 A text that ends with a carriage return: the scan for line ends steps over the NUL and reads on behind the text.
* `C85_behind_violated`: C85 The scan changes what lies behind the text: here the byte behind the NUL.
* `C166_add_violated`: C166 is false of adding: on every element with attributes, setting an attribute it does not have reads a string through a pointer that was never set.
* `C166_remove_violated`: C166 is false of removing: on every element, removing an attribute it has moves bytes through a pointer that was never set.
* `C166_own_violated`: C166 is false of a value that came from the element: setting an attribute to the pointer `GetXMLTreeAttribute` returned for it reads the string after it was freed.
* `C165_inserted_violated`: C165 is false of the tables of elements that `NewXMLTreeTag` made and that were inserted into another tree: whatever else is done, giving up the tree frees the element but not its tables, which nothing can reach any more.
* `C110_first_attribute_violated`: C110 is false for tags whose first attribute has a name that does not start with an ASCII letter or `_` (xml-tree.c:2086): names may start with `:` and with characters beyond ASCII, but then all the attributes of the tag are lost, and nothing is reported. The document `<a :x='1' y='2'/>` is read as `<a/>`. If a value has a slash, the document is refused: of `<a :x='1/2' y='2'/>` not even the root is read.
* `C110_skipped_violated`: C110 is false for the elements rdf:Bag and rdf:Seq (xml-tree.c:1965-1986): they are left out with all that they hold. `<a><rdf:Bag><b c='1'>t</b></rdf:Bag></a>` is read as `<a></a>`. If an attribute in them has a slash in its value, as a URL has, the document is refused: `<a><rdf:Bag><b c='1/2'>t</b></rdf:Bag></a>`.
* `C55_harmless_violated`: C55 (violated) Documents without any cycle are refused as circular: an entity may not even refer to a predefined entity, as `<!ENTITY firm "AT&amp;T">` does, nor to one declared before it, as `<!ENTITY a "x"><!ENTITY b "&a;">` does.
* `C55_parameter_violated`: C55 (violated) A parameter entity may refer to itself: whatever its name, `<!ENTITY % n "%n;"><!ENTITY x "%n;">` is not rejected, and the reference in the second declaration is replaced for ever.
* `C53_utf8_violated`: C53 A text with a byte above 127 — any text in UTF-8 that is not ASCII — does not come back.
* `C53_binary_violated`: C53 A text with a control character is written as an element: the escaped text has `<` and `>`.
* `C90_subnode_violated`: C90 is false of numbers: `tag[2]` does not give the second child with the tag, but the child that follows the first one with the tag, whatever its tag is.
* `C90_directory_violated`: C90 is false of tags with a colon: which child `ns:tag` gives depends on the files in the working directory. If there is one called `ns`, the child with tag `tag` is meant, otherwise the child with tag `ns:tag`.
* `C82_siblings_violated`: C82 is false when a child is attached before the first child and has its tag: the old first child stays in the chain, so the chain has two nodes with the same tag. True for every tag.
* `C83_lost_violated`: C83 is false for the first child: with children `t`, `u`, `t` in document order, pruning the first leaves a child with tag `t` that is still there in document order, but that `GetXMLTreeChild` no longer finds; pruning it too dereferences a NULL pointer. True for all tags `t` and `u` that differ.
* `C83_hidden_violated`: C83 is false when children are attached in another order: `t` at 5, `u` at 6, `t` at 0, `t` at 3; pruning the child at 3 hides the child with tag `u`, which is still there in document order, from `GetXMLTreeChild`. True for all tags that differ.
* `C121_behind_violated`: C121 is false for text outside the root, which is no part of a document but is dropped without a warning (xml-tree.c:1579 and 2041-2043): `<a/>text` is read as `<a/>`, whatever the text.
* `C121_closing_violated`: C121 is false for what stands behind the name in a closing tag, which is dropped without a warning (xml-tree.c:2217-2237): `<a></a b='1'>` is read as `<a></a>`.
* `C112_nesting_violated`: C112 is false for elements with children but no content of their own (xml-tree.c:2763 and 2776): the element is written as if it were empty, and its children stand behind it. An element `<a><b/></a>` is written `<a/><b/>`, which is not a document.
* `C112_nesting_read_violated`: The element `<a><b/></a>`, read and written.
* `C112_instructions_violated`: C112 is false for processing instructions (xml-tree.c:2837-2856 and 2871-2890): an instruction that stands before the root is written three times, twice before the root and once behind it: read again, the document has three.
* `C113_offset_violated`: C113 is false for an element that lies 4096 bytes or more into the content of its parent (xml-tree.c:2706 and 2664): written on its own it has no parent, but its offset is kept: a NUL is written that far behind an empty string, outside its buffer of 4096 bytes.
* `C113_null_value_violated`: C113 is false for documents that are not well-formed but are read without a warning (xml-tree.c:2107-2118 and 2730): an attribute without quotes gets the value NULL, which writing the tree dereferences. `<a b=c></a>` is one.

## Axioms each theorem depends on

From `#print axioms`, for the 613 theorems of MANIFEST.json.

* (none): C123_cross_violated, C123_lost_violated, C123_self_violated, C12_strip_empty_quotes_violated, C12_strip_quoted_idempotent_violated, C155_reset
* `propext`: C03_split_refused, C06_equal_up_to_case_non_ascii_violated, C06_ncompare, C09_substitute_empty_violated, C120_get_violated, C120_iterate_violated, C120_lookup_violated, C122_openmp_violated, C128_reset_stopped_violated, C128_restart_violated, C133_unknown, C136_eof_violated, C136_error_violated, C136_ignored_violated, C136_unavailable_partial, C137_ttou_violated, C138_stdin_violated, C160_chunk_violated, C162_exempt_violated, C162_failed_violated, C162_packed_violated, C17_overwrite_example_violated, C180_handlers, C92_writes_partial
* `propext`, `Quot.sound`: C01_hex_round_trip, C01_hex_text_round_trip, C01_hex_text_shape, C01_hex_upper_case, C02_compare_antisymmetric, C02_compare_is_dictionary_order, C02_compare_transitive, C03_clone, C03_set, C04_concatenate_overrun_violated, C04_concatenate_prefix_partial, C04_concatenate_violated, C04_concatenate_witness, C05_concatenate_full, C05_copy_zero, C08_decode_unique, C104_status_partial, C105_sound, C114_status_violated, C118_get_violated, C118_last_violated, C118_remove_last_violated, C123_delivered_partial, C124_noname_violated, C127_mask, C127_previous_violated, C128_reset_violated, C128_stopwatch_partial, C12_strip_blank, C12_strip_idempotent, C12_strip_quoted_partial, C12_strip_unquoted, C130_huge_violated, C131_best_partial, C131_empty_violated, C131_mask_violated, C131_offset_violated, C131_pattern_violated, C131_tail_violated, C132_backslash_violated, C132_digits_violated, C133_large_violated, C133_level_partial, C133_restored_partial, C134_cut_violated, C134_lzma_partial, C134_reported_partial, C134_short_violated, C136_long_violated, C137_restored_partial, C138_hidden_partial, C143_absolute_violated, C143_configure_partial, C143_mime_partial, C143_root_violated, C144_agree, C144_arguments_partial, C144_behind_violated, C144_inside_violated, C144_writable_partial, C145_configure_partial, C145_configure_short_partial, C145_failed_violated, C145_fails_partial, C145_file_partial, C145_interrupted_violated, C145_overrun_violated, C145_short_partial, C145_shorter_violated, C145_stream_partial, C149_exit_violated, C14_insert_middle_violated, C151_content_partial, C151_growing_violated, C158_element_violated, C158_full_violated, C158_growth_violated, C160_dropped_violated, C162_extend_violated, C166_add_violated, C166_get, C166_own_violated, C166_remove_violated, C166_set_partial, C167_down_violated, C167_race_violated, C170_alias_violated, C170_null_violated, C174_blocked_violated, C174_ends_partial, C174_failed_violated, C174_flags_violated, C174_handlers_partial, C174_locked_violated, C174_lost_violated, C179_long_violated, C179_tells, C21_traversal, C28_slack_is_needed, C34_construct, C38_injective, C38_nonzero, C38_surjective, C38_value, C40_read_end_violated, C41_truncated_violated, C42_exclusive_partial, C42_failed_violated, C42_nested_violated, C42_takeover_violated, C47_area_violated, C47_sum, C48_limit_violated, C48_request_violated, C49_balanced_partial, C49_file_violated, C49_refused_books_violated, C49_refused_violated, C50_aligned_inside, C50_extent, C50_refusal, C50_room, C52_fatal_wrong_violated, C52_repetition_violated, C56_document_violated, C56_plain, C62_lookup_violated, C68_generated_nonce, C68_ready, C72_short_key_violated, C77_pseudo_partial, C77_pseudo_violated, C77_value_partial, C77_value_violated, C79_first_violated, C79_second_partial, C82_siblings_violated, C83_hidden_violated, C83_lost_violated, C85_end_violated, C92_extent_violated, C93_readonly_violated, C93_unmapped_violated, C95_assert_violated, C99_default_sizes
* `propext`, `Classical.choice`, `Quot.sound`: C03_split, C05_concatenate, C05_copy, C05_copy_return_violated, C05_copy_text, C06_antisymmetric, C06_compare_spec, C06_equal_up_to_case, C06_equal_up_to_case_strcasecmp, C06_transitive, C07_encode, C07_round_trip, C08_decode, C09_substitute, C09_substitute_absent, C100_checked_partial, C100_cut_violated, C100_swapped_violated, C101_chunks_violated, C102_safe, C103_generated_partial, C103_new, C104_added_violated, C106_empty_violated, C106_search_partial, C107_stream_violated, C108_first_partial, C108_stamp_violated, C109_protocol_violated, C10_glob, C10_glob_brace_violated, C10_glob_empty_pattern_violated, C10_glob_overread_violated, C10_glob_terminates, C110_document_partial, C110_first_attribute_violated, C110_skipped_violated, C111_instructions_partial, C112_instructions_violated, C112_nesting_read_violated, C112_nesting_violated, C112_round_trip_partial, C113_null_value_violated, C113_offset_violated, C113_writing_safe_partial, C114_protocol_violated, C114_read, C114_restored_partial, C115_damaged_partial, C115_header_violated, C116_crash_partial, C116_first_late, C116_first_violated, C117_burst, C118_capacity_violated, C118_threads_partial, C119_own_key, C119_threads, C11_token_no_paren_partial, C11_token_partial, C11_token_violated, C120_threads_partial, C120_turns_partial, C121_behind_violated, C121_closing_violated, C121_tags_partial, C122_once_partial, C122_returns_partial, C123_kept_partial, C123_returns_partial, C124_event_partial, C124_filename, C124_long_violated, C124_module_violated, C124_plain, C124_xml_partial, C124_xml_violated, C125_bound_violated, C125_forged_violated, C125_kept_partial, C125_unlimited_violated, C126_listed_violated, C126_parse_partial, C126_trailing_violated, C126_unknown_lost_violated, C126_unknown_violated, C127_any_partial, C127_list_violated, C127_lookup_violated, C129_minutes_violated, C129_whole_partial, C12_strip, C130_east_violated, C130_elsewhere_violated, C130_roundtrip_partial, C130_west_partial, C132_every, C132_read_partial, C135_sha256, C136_entered_partial, C139_blank_violated, C139_exception_partial, C139_exception_unknown_partial, C139_found_partial, C139_kinds_violated, C139_long_violated, C139_outside_violated, C139_second_violated, C139_slash_violated, C139_unknown_partial, C13_capacity, C13_no_leak, C13_sequence, C140_first_partial, C140_unnamed_violated, C141_entries_partial, C141_locale_violated, C141_mime_violated, C141_names_partial, C141_unnamed_violated, C142_found_partial, C142_long_violated, C142_xdg_violated, C143_cache_partial, C145_map_partial, C146_directory_partial, C146_directory_violated, C146_exhausted_violated, C146_fresh_partial, C146_twin_violated, C147_keep_violated, C147_removes_partial, C147_trash_violated, C147_twin_violated, C148_limit_violated, C148_removed_partial, C149_blank_violated, C149_changed_partial, C149_escape_violated, C14_insert_ends_partial, C150_ends_partial, C150_forever_violated, C150_ignored_violated, C150_overrun_violated, C152_changed_partial, C152_chunks_violated, C152_name_violated, C152_settings_partial, C153_ends_partial, C153_forever_violated, C153_overrun_violated, C154_chunksize_violated, C154_compress_violated, C154_keylength_violated, C154_options_partial, C154_random_violated, C155_destroyed, C155_owned, C156_iterator_partial, C156_iterator_violated, C156_partial, C156_same_key_violated, C157_owned_partial, C158_partial, C159_list_destroyed, C15_replace_head_leak_violated, C15_replace_iterator_violated, C15_sorted_insert, C15_sorted_replace, C160_exempt_partial, C160_ignored_violated, C160_kept_partial, C160_sound_partial, C161_damaged_violated, C161_partial, C162_partial, C162_standard_partial, C163_again_violated, C163_behind_violated, C163_bracket_violated, C163_declared_partial, C163_literal_violated, C163_name_violated, C163_placed_partial, C164_document_partial, C165_destroy_partial, C165_inserted_violated, C165_leak, C165_pruned_partial, C167_configure_violated, C167_one_partial, C167_threads_partial, C167_up_partial, C168_corrupt_violated, C168_list, C168_missing_violated, C168_secret, C168_told, C169_default_partial, C169_export_partial, C169_export_violated, C169_list_partial, C169_option_violated, C169_ring_violated, C169_same_violated, C16_map, C16_put_succeeds, C170_history_partial, C170_inplace, C170_leak, C170_overlap_violated, C171_history_partial, C171_kind_violated, C171_long_violated, C171_place, C172_restored_partial, C172_same_name_decipher_violated, C172_same_name_violated, C173_checked_partial, C173_decipher, C173_decipher_fails_violated, C173_decipher_missing, C173_downgrade_violated, C173_encipher, C173_encipher_fails_violated, C173_encipher_missing, C173_properties_missing_violated, C175_bracket_violated, C175_empty_violated, C175_exists_violated, C175_expand_partial, C175_hidden_violated, C175_parameters_violated, C175_root_violated, C175_unread, C175_vanishes_violated, C176_carried_violated, C176_last_violated, C176_missing_violated, C176_shows_partial, C176_tells_partial, C177_authenticate_holds, C177_authenticate_partial, C177_authenticate_violated, C177_given_up_partial, C177_holds, C177_own_violated, C177_passphrase_violated, C177_remains_violated, C177_seed_violated, C178_odd_violated, C178_small_violated, C178_value_partial, C179_shows_partial, C17_count_partial, C17_overwrite_violated, C180_client, C180_domain_violated, C180_silent_violated, C180_status_partial, C180_told_partial, C18_iteration, C19_delete_result, C19_map, C20_count, C21_iteration, C22_access_succeeds, C22_balance, C23_aes_injective, C23_aes_inverse, C24_serpent_inverse, C24_serpent_key, C25_twofish_injective, C25_twofish_inverse, C26_chacha_involution, C27_aes, C27_chacha, C27_round_trip, C27_serpent, C27_stream_round_trip, C27_twofish, C28_decipher_bounds, C28_encipher_bounds, C29_counters, C30_chacha_partial, C30_serpent_ctr_violated, C30_serpent_ecb_violated, C30_serpent_ofb_violated, C31_chacha_ctr_violated, C31_chacha_ecb_violated, C31_chacha_ofb_violated, C32_split_large, C32_split_partial, C33_conforms_partial, C34_hmac_construction, C34_hmac_partial, C34_hmac_sha3_violated, C35_crc_burst, C36_split, C36_stream, C37_increment, C37_nonces, C39_first_entropy_violated, C39_seed_violated, C40_append, C40_read, C40_read_end_partial, C40_write, C41_16, C41_32, C41_64, C41_truncated, C43_export, C43_history, C43_import, C44_duplicate, C44_unique, C45_crash_points, C45_crash_states, C45_earlier_partial, C45_header_points, C45_header_violated, C45_import_violated, C45_interrupted_partial, C45_lost_violated, C45_nonce_violated, C46_store_partial, C47_books_partial, C48_below_limit_partial, C51_command_violated, C51_empty_violated, C51_events, C51_inverse, C51_list_partial, C51_negate_violated, C51_other_names, C51_single, C51_unknown, C51_values, C52_deliver_partial, C52_fatal_lost_violated, C52_log, C53_binary_violated, C53_roundtrip_partial, C53_safe, C53_utf8_violated, C54_children, C55_acyclic_partial, C55_general_partial, C55_harmless_violated, C55_parameter_violated, C55_refused, C56_convert_partial, C56_terminator_violated, C56_unpaired_violated, C57_absolute_violated, C57_base, C57_head_tail_partial, C57_hidden_violated, C57_marks, C57_overread_violated, C57_query_violated, C57_root_extension_partial, C57_underrun_violated, C58_in_order, C58_reads, C59_acquire, C59_disjoint, C59_example, C59_relinquish, C59_resize, C60_gap_violated, C60_granted_partial, C60_resize_violated, C61_token_no_progress_extent1, C61_token_progress, C62_lookup_current_partial, C63_remove_by_value, C64_clone, C65_aes_fips197, C65_aes_other_key_sizes, C66_chacha20, C66_chacha20_no_nonce, C66_last_nonce, C67_chacha_key_partial, C67_chacha_short_key_violated, C68_decipher, C68_encipher, C69_keystream_reuse_violated, C70_serpent_conforms, C71_twofish_conforms, C72_key_bytes_ignored_violated, C72_twofish_key_partial, C73_sha224_short_partial, C73_sha224_violated, C74_keccak_partial, C74_sha3_violated, C75_length_partial, C75_sha1_long_update_violated, C75_sha256_long_update_violated, C76_sha3_update_hangs_violated, C76_update_returns_partial, C78_protocol_violated, C80_keystream_violated, C81_default_violated, C82_siblings_partial, C83_order_partial, C83_tags_partial, C84_decode_partial, C84_empty_violated, C85_behind_violated, C85_lines_partial, C86_token_partial, C86_value_partial, C87_components, C87_join, C88_append_partial, C88_hidden_violated, C89_chop, C90_directory_violated, C90_path_partial, C90_subnode_violated, C91_add_partial, C94_enough_partial, C94_stale_violated, C95_empty_violated, C95_refused_partial, C95_wrap_violated, C96_joined, C97_destroyed_partial, C97_forgotten_violated, C98_zeros_violated, C99_enciphers, C99_file_partial, C99_lost_violated, C99_multiple_violated, C99_padded_violated, C99_restored_partial
