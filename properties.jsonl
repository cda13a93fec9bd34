{"id": "C01", "title": "Hex text round trip", "statement": "Converting a byte string to hexadecimal text with StringInfoToHexString and back with HexStringToStringInfo returns exactly the same bytes, the text has two lower-case hex digits per byte, and upper-case digits decode to the same bytes.", "quantifier": "every byte string of every length", "why_tests_cant": "the claim covers all 256^n byte strings of every length n", "anchors": ["wizard/string.c:StringInfoToHexString", "wizard/string.c:HexStringToStringInfo"]}
{"id": "C02", "title": "Byte-string comparison is a total order", "statement": "CompareStringInfo is zero exactly when the two byte strings are equal, its sign flips when the arguments are swapped, and it is transitive; it is the shortlex-free dictionary order on unsigned bytes (a proper prefix sorts first).", "quantifier": "every pair and triple of byte strings", "why_tests_cant": "an ordering law is a statement about all triples", "anchors": ["wizard/string.c:CompareStringInfo", "wizard/splay-tree.c:CompareSplayTreeStringInfo"]}
{"id": "C03", "title": "Setting and splitting a byte string", "statement": "SetStringInfo leaves the destination length unchanged and fills it with the source bytes, truncated or zero-padded; SplitStringInfo(s,k) returns the first k bytes and leaves the rest in s, so the two parts concatenate to the original, and refuses k larger than the length without changing s.", "quantifier": "every pair of byte strings and every offset", "why_tests_cant": "all lengths and offsets, including the boundary offset", "anchors": ["wizard/string.c:SetStringInfo", "wizard/string.c:SplitStringInfo", "wizard/string.c:CloneStringInfo"]}
{"id": "C04", "title": "Concatenating byte strings", "statement": "ConcatenateStringInfo(a,b) makes a the old bytes of a followed by the bytes of b and writes no byte outside a's allocation.", "quantifier": "every pair of byte strings", "why_tests_cant": "must hold for every pair of lengths, and a memory-safety violation can be silent in a test", "anchors": ["wizard/string.c:ConcatenateStringInfo"]}
{"id": "C05", "title": "Bounded string copy and append", "statement": "CopyWizardString and ConcatenateWizardString never write past the given buffer length, leave the buffer NUL-terminated whenever that length is positive, and the text left in the buffer is the longest prefix of the source (or of old contents followed by source) that fits.", "quantifier": "every destination content, source string and buffer length", "why_tests_cant": "memory safety and truncation at every length, incl. 0 and exact fit", "anchors": ["wizard/string.c:CopyWizardString", "wizard/string.c:ConcatenateWizardString"]}
{"id": "C06", "title": "Case-insensitive comparison is a consistent ordering", "statement": "LocaleCompare returns 0 exactly for strings equal up to ASCII case, is antisymmetric and transitive, and LocaleNCompare(a,b,n) equals LocaleCompare of the first n characters.", "quantifier": "every pair and triple of strings, every n", "why_tests_cant": "ordering laws quantify over all triples; containers depend on them", "anchors": ["wizard/string.c:LocaleCompare", "wizard/string.c:LocaleNCompare", "wizard/string.c:AsciiMap"]}
{"id": "C07", "title": "Base64 round trip", "statement": "Base64Decode(Base64Encode(b)) returns exactly b, and the encoding uses only the 64-character alphabet plus at most two trailing '=' and has length 4*ceil(n/3).", "quantifier": "every non-empty byte string", "why_tests_cant": "all contents and all lengths modulo 3", "anchors": ["wizard/utility.c:Base64Encode", "wizard/utility.c:Base64Decode"]}
{"id": "C08", "title": "Base64 decoding never overruns and rejects malformed text", "statement": "Whatever text is given, Base64Decode writes only inside the buffer it allocated, and it returns a value only for texts that are, after removing white space, complete 4-character groups with correct '=' padding and zero trailing bits; otherwise it returns nothing.", "quantifier": "every NUL-terminated text, well-formed or hostile", "why_tests_cant": "hostile inputs are unbounded in number; overruns may be silent", "anchors": ["wizard/utility.c:Base64Decode"]}
{"id": "C09", "title": "String substitution", "statement": "SubstituteString replaces, left to right, every non-overlapping occurrence of a non-empty search string and changes nothing else; the result does not depend on buffer growth; it reports whether anything was replaced.", "quantifier": "every text, non-empty search string and replacement", "why_tests_cant": "all texts and overlap patterns", "anchors": ["wizard/string.c:SubstituteString"]}
{"id": "C10", "title": "Glob matching", "statement": "GlobExpression(text,pattern) is true exactly when the text matches the pattern in the usual sense for patterns made of literals, '?', '*' and backslash escapes.", "quantifier": "every text and every pattern of the fragment", "why_tests_cant": "backtracking matchers go wrong on particular star/text combinations; the set is infinite", "anchors": ["wizard/token.c:GlobExpression"]}
{"id": "C11", "title": "Tokenizer stays in bounds", "statement": "GetNextToken never reads past the terminating NUL of its input and never writes outside the token buffer, whatever the text.", "quantifier": "every text, every buffer extent ≥ 1", "why_tests_cant": "hostile texts are unbounded; overruns may be silent", "anchors": ["wizard/token.c:GetNextToken"]}
{"id": "C12", "title": "White-space stripping", "statement": "StripString removes exactly the leading and trailing white space and one matching pair of quotes, never reads or writes outside the string, and is idempotent on unquoted text.", "quantifier": "every string", "why_tests_cant": "all strings incl. empty, all blank and one-character", "anchors": ["wizard/string.c:StripString"]}
{"id": "C13", "title": "Linked list behaves as a sequence", "statement": "Under any sequence of AppendValue, RemoveElement, RemoveElementByValue, RemoveLast, Clear, GetValue, GetLast, iteration and counting, a linked list behaves as the mathematical sequence of the values appended and not removed, with appends beyond the capacity refused without change.", "quantifier": "every finite sequence of operations on every capacity", "why_tests_cant": "an unbounded set of histories", "anchors": ["wizard/hashmap.c:AppendValueToLinkedList", "wizard/hashmap.c:RemoveElementFromLinkedList", "wizard/hashmap.c:RemoveElementByValueFromLinkedList", "wizard/hashmap.c:RemoveLastElementFromLinkedList", "wizard/hashmap.c:GetValueFromLinkedList"]}
{"id": "C14", "title": "Linked list insertion by position", "statement": "InsertValueInLinkedList(list,i,v) for i ≤ count makes v the i-th value, shifts the later ones by one and increments the count.", "quantifier": "every list and every index", "why_tests_cant": "all positions of all lists; head and tail positions are special-cased", "anchors": ["wizard/hashmap.c:InsertValueInLinkedList"]}
{"id": "C15", "title": "Sorted insertion keeps the list sorted", "statement": "If a list is strictly sorted under a comparison, InsertValueInSortedLinkedList leaves it sorted, containing the new value and, except for a compare-equal element it replaces and returns, all the old ones.", "quantifier": "every sorted list, value and total-preorder comparison", "why_tests_cant": "all lists and positions", "anchors": ["wizard/hashmap.c:InsertValueInSortedLinkedList"]}
{"id": "C16", "title": "Hash map behaves as a finite map", "statement": "Under any sequence of PutEntry, RemoveEntry and GetValue calls, a hash map answers every GetValue as a finite map would: the value of the latest Put for an equal key not removed since, for any hash function consistent with the comparison, across any number of capacity increases.", "quantifier": "every finite sequence of operations, every capacity, every hash function consistent with the key comparison", "why_tests_cant": "unbounded histories, including resize points", "anchors": ["wizard/hashmap.c:PutEntryInHashmap", "wizard/hashmap.c:GetValueFromHashmap", "wizard/hashmap.c:RemoveEntryFromHashmap", "wizard/hashmap.c:IncreaseHashmapCapacity"]}
{"id": "C17", "title": "Hash map entry count", "statement": "GetNumberOfEntriesInHashmap equals the number of distinct keys currently stored.", "quantifier": "every history of puts and removes", "why_tests_cant": "unbounded histories; overwrite must be distinguished from insert", "anchors": ["wizard/hashmap.c:GetNumberOfEntriesInHashmap", "wizard/hashmap.c:PutEntryInHashmap"]}
{"id": "C18", "title": "Hash map iteration", "statement": "After a reset, iterating a hash map visits each stored entry exactly once and then reports the end.", "quantifier": "every reachable hash map", "why_tests_cant": "all bucket layouts", "anchors": ["wizard/hashmap.c:GetNextKeyInHashmap", "wizard/hashmap.c:GetNextValueInHashmap", "wizard/hashmap.c:ResetHashmapIterator"]}
{"id": "C19", "title": "Splay tree behaves as a finite map", "statement": "Under any sequence of AddValue, GetValue, RemoveNode and DeleteNode calls, a splay tree answers every lookup as a finite map keyed up to comparison-equality would; the self-adjusting rotations and the depth-triggered rebalancing never lose, duplicate or reorder a key.", "quantifier": "every finite sequence of operations, every total-preorder comparison", "why_tests_cant": "unbounded histories; rotations depend on access order; the depth limit 1024 is out of reach of unit tests", "anchors": ["wizard/splay-tree.c:AddValueToSplayTree", "wizard/splay-tree.c:GetValueFromSplayTree", "wizard/splay-tree.c:RemoveNodeFromSplayTree", "wizard/splay-tree.c:DeleteNodeFromSplayTree", "wizard/splay-tree.c:Splay", "wizard/splay-tree.c:BalanceSplayTree"]}
{"id": "C20", "title": "Splay tree node count", "statement": "GetNumberOfNodesInSplayTree equals the number of distinct keys stored, after any history.", "quantifier": "every finite sequence of operations", "why_tests_cant": "unbounded histories", "anchors": ["wizard/splay-tree.c:GetNumberOfNodesInSplayTree", "wizard/splay-tree.c:AddValueToSplayTree", "wizard/splay-tree.c:DeleteNodeFromSplayTree"]}
{"id": "C21", "title": "Splay tree traversal", "statement": "The internal in-order traversal visits every node exactly once in ascending key order with its fixed-size stacks never overflowing; successive GetNextKey calls after a reset return all keys in ascending order, each once, then NULL.", "quantifier": "every tree shape", "why_tests_cant": "every shape of every size, including degenerate chains", "anchors": ["wizard/splay-tree.c:IterateOverSplayTree", "wizard/splay-tree.c:GetNextKeyInSplayTree", "wizard/splay-tree.c:ResetSplayTreeIterator"]}
{"id": "C22", "title": "Splay tree depth limit is recovered from", "statement": "When an access path exceeds the maximum depth, rebalancing yields a tree of logarithmic depth, so the retried access succeeds and the library never aborts with its splay-tree fatal error for any tree that fits in memory.", "quantifier": "every tree shape whose node count fits a 64-bit size", "why_tests_cant": "needs trees over 1024 deep and all of their shapes", "anchors": ["wizard/splay-tree.c:BalanceSplayTree", "wizard/splay-tree.c:LinkSplayTreeNodes", "wizard/splay-tree.c:SplaySplayTree"]}
{"id": "C23", "title": "AES block decryption inverts encryption", "statement": "For every key, DecipherAESBlock(EncipherAESBlock(block)) = block, and encryption is therefore a permutation of 16-byte blocks.", "quantifier": "every key of every length and every 16-byte block", "why_tests_cant": "2^128 blocks times all keys", "anchors": ["wizard/aes.c:EncipherAESBlock", "wizard/aes.c:DecipherAESBlock", "wizard/aes.c:SetAESKey"]}
{"id": "C24", "title": "Serpent block decryption inverts encryption", "statement": "For every key, DecipherSerpentBlock(EncipherSerpentBlock(block)) = block.", "quantifier": "every key and block", "why_tests_cant": "2^128 blocks times all keys", "anchors": ["wizard/serpent.c:EncipherSerpentBlock", "wizard/serpent.c:DecipherSerpentBlock", "wizard/serpent.c:SetSerpentKey"]}
{"id": "C25", "title": "Twofish block decryption inverts encryption", "statement": "For every key, DecipherTwofishBlock(EncipherTwofishBlock(block)) = block.", "quantifier": "every key schedule and block", "why_tests_cant": "2^128 blocks times all keys", "anchors": ["wizard/twofish.c:EncipherTwofishBlock", "wizard/twofish.c:DecipherTwofishBlock"]}
{"id": "C26", "title": "ChaCha encryption is an involution", "statement": "For every key, nonce and 64-byte block, applying the ChaCha block operation twice restores the block.", "quantifier": "every key, nonce and block", "why_tests_cant": "2^512 blocks times all keys", "anchors": ["wizard/chacha.c:EncipherChachaBlock", "wizard/chacha.c:DecipherChachaBlock"]}
{"id": "C27", "title": "Cipher modes round trip", "statement": "For each mode (ECB, CBC, CFB, OFB, CTR), deciphering what EncipherCipher produced with the same key and nonce restores the first length bytes of the message, whatever its length, provided the buffer (including its slack) is passed unchanged.", "quantifier": "every message of every length, every key and nonce, every block cipher whose block decryption inverts encryption", "why_tests_cant": "all lengths, in particular all residues modulo the block size", "anchors": ["wizard/cipher.c:EncipherCipher", "wizard/cipher.c:DecipherCipher", "wizard/cipher.c:EncipherCBCMode", "wizard/cipher.c:EncipherCFBMode", "wizard/cipher.c:EncipherCTRMode", "wizard/cipher.c:EncipherECBMode", "wizard/cipher.c:EncipherOFBMode"]}
{"id": "C28", "title": "Cipher operations stay inside the buffer", "statement": "Enciphering or deciphering a message touches no byte beyond the slack that every byte string carries after its length.", "quantifier": "every message length, mode and cipher block size up to the documented maximum", "why_tests_cant": "all lengths; an overrun may be silent", "anchors": ["wizard/cipher.c:EncipherCipher", "wizard/string.c:AcquireStringInfo", "wizard/cipher.h:MaxCipherBlocksize"]}
{"id": "C29", "title": "CTR counter values never repeat", "statement": "Within one message the CTR mode never encrypts two blocks under the same counter value: counter blocks are the consecutive numbers from the nonce on, and the library stops with a sequence-wrap error before a counter value is reused.", "quantifier": "every nonce and every number of blocks", "why_tests_cant": "needs runs of up to 2^128 blocks", "anchors": ["wizard/cipher.c:IncrementCipherNonce", "wizard/cipher.c:EncipherCTRMode"]}
{"id": "C30", "title": "Every enciphered byte depends on the key", "statement": "No byte of a message enciphered in ECB mode is passed through unchanged for every key: enciphering transforms whole blocks.", "quantifier": "every cipher and every message byte position", "why_tests_cant": "a claim about all keys at once", "anchors": ["wizard/serpent.c:SerpentBlocksize", "wizard/serpent.c:EncipherSerpentBlock", "wizard/cipher.c:EncipherECBMode"]}
{"id": "C31", "title": "Distinct blocks use distinct ChaCha keystream", "statement": "Two different blocks of one message are not enciphered with the same keystream.", "quantifier": "every message of at least two blocks", "why_tests_cant": "a claim about every key and message", "anchors": ["wizard/chacha.c:EncipherChachaBlock", "wizard/cipher.c:EncipherECBMode"]}
{"id": "C32", "title": "Hash results do not depend on how the data is split", "statement": "Feeding a message to UpdateHash in pieces, in any split, yields the same digest as feeding it at once; also for empty pieces.", "quantifier": "every message and every partition of it, for MD5, SHA-1, SHA-2 (224/256/384/512), SHA-3 (224/256/384/512) and CRC-64", "why_tests_cant": "infinitely many messages and partitions; buffer-boundary cases depend on residues", "anchors": ["wizard/hash.c:UpdateHash", "wizard/md5.c:UpdateMD5", "wizard/sha1.c:UpdateSHA1", "wizard/sha2256.c:UpdateSHA2256", "wizard/sha2512.c:UpdateSHA2512", "wizard/sha3.c:UpdateSHA3", "wizard/crc64.c:UpdateCRC64"]}
{"id": "C33", "title": "Hashes compute the published functions", "statement": "For every message, the digest equals the published definition: pad to a whole number of blocks with 0x80, zeros and the bit length in the prescribed byte order, then iterate the compression function from the published initial value.", "quantifier": "every message of every length", "why_tests_cant": "the padding case analysis must be right for every length residue", "anchors": ["wizard/md5.c:FinalizeMD5", "wizard/sha1.c:FinalizeSHA1", "wizard/sha2256.c:FinalizeSHA2256", "wizard/sha2512.c:FinalizeSHA2512"]}
{"id": "C34", "title": "HMAC is the published construction", "statement": "FinalizeHMAC yields H((K^opad) || H((K^ipad) || message)) with K the key zero-padded to the block size, or its hash if longer, independent of how the message was split and of what the object was used for before.", "quantifier": "every key, message, split and prior use, every hash", "why_tests_cant": "all key lengths around the block size, all histories", "anchors": ["wizard/hmac.c:InitializeHMAC", "wizard/hmac.c:UpdateHMAC", "wizard/hmac.c:FinalizeHMAC"]}
{"id": "C35", "title": "CRC-64 detects small corruptions", "statement": "Changing any single run of at most 64 consecutive bits of a message changes its CRC-64, for messages of any length.", "quantifier": "every message, every burst of at most 64 bits at every position", "why_tests_cant": "unbounded messages; all 2^64 bursts", "anchors": ["wizard/crc64.c:UpdateCRC64", "wizard/crc64.c:InitializeCRC64"]}
{"id": "C36", "title": "Random output does not depend on request sizes", "statement": "The byte stream produced by consecutive SetRandomKey requests depends only on the generator state and the total number of bytes, not on how the requests are split.", "quantifier": "every generator state and every sequence of request sizes", "why_tests_cant": "all splits", "anchors": ["wizard/random.c:SetRandomKey", "wizard/random.c:GetRandomKey"]}
{"id": "C37", "title": "Random nonces are never reused", "statement": "The counter fed to the generator's HMAC never takes the same value twice before the library stops with a sequence error.", "quantifier": "every starting nonce, every number of blocks", "why_tests_cant": "needs runs over 2^(8n) steps", "anchors": ["wizard/random.c:IncrementRandomNonce", "wizard/random.c:SetRandomKey"]}
{"id": "C38", "title": "Pseudo-random generator never degenerates", "statement": "The state step of GetPseudoRandomValue is a bijection, never maps a non-zero state to the all-zero state, and every returned value lies in [0,1].", "quantifier": "every 256-bit generator state", "why_tests_cant": "2^256 states", "anchors": ["wizard/random.c:GetPseudoRandomValue"]}
{"id": "C39", "title": "Generator seeding uses the gathered entropy", "statement": "The initial nonce and reservoir of a random generator depend on the entropy gathered when it was acquired.", "quantifier": "every entropy outcome", "why_tests_cant": "a dependence claim over all entropy values", "anchors": ["wizard/random.c:AcquireRandomInfo", "wizard/hmac.c:InitializeHMAC"]}
{"id": "C40", "title": "Chunked file I/O is complete under any schedule of short transfers", "statement": "ReadFileChunk returns exactly the next min(n, remaining) bytes and WriteFileChunk appends exactly all bytes, under any schedule in which the system call transfers fewer bytes than asked or is interrupted finitely often.", "quantifier": "every file content, every request size, every schedule of short and interrupted transfers", "why_tests_cant": "the set of schedules is unbounded and not controllable in a test", "anchors": ["wizard/file.c:ReadFileChunk", "wizard/file.c:WriteFileChunk"]}
{"id": "C41", "title": "Fixed-width integers round trip through files", "statement": "ReadFile16/32/64Bits returns the value written by the matching WriteFile call, the bytes are little-endian on every host, and a truncated file is reported as failure.", "quantifier": "every 16-, 32- and 64-bit value, every truncation point", "why_tests_cant": "2^64 values, every truncation", "anchors": ["wizard/file.c:WriteFile16Bits", "wizard/file.c:ReadFile16Bits", "wizard/file.c:WriteFile32Bits", "wizard/file.c:ReadFile32Bits", "wizard/file.c:WriteFile64Bits", "wizard/file.c:ReadFile64Bits"]}
{"id": "C42", "title": "File lock mutual exclusion", "statement": "At most one live (process, thread) at a time holds a file opened through AcquireFileInfo, under any interleaving of acquire, failed acquire and release.", "quantifier": "every interleaving of any number of processes", "why_tests_cant": "interleavings are unbounded and not controllable", "anchors": ["wizard/file.c:AcquireFileLock", "wizard/file.c:RelinquishFileLock", "wizard/file.c:AcquireFileInfo", "wizard/file.c:DestroyFileInfo"]}
{"id": "C43", "title": "Keyring import then export", "statement": "After ImportKeyringKey succeeds, ExportKeyringKey with the same id returns exactly the key and nonce imported, whatever other entries the keyring holds, and exports of other ids are unaffected.", "quantifier": "every keyring content reachable by imports, every id, key and nonce", "why_tests_cant": "all histories of imports", "anchors": ["wizard/keyring.c:ImportKeyringKey", "wizard/keyring.c:ExportKeyringKey"]}
{"id": "C44", "title": "Keyring ids are unique", "statement": "ImportKeyringKey refuses an id already present and leaves the file unchanged.", "quantifier": "every keyring history", "why_tests_cant": "all histories", "anchors": ["wizard/keyring.c:ImportKeyringKey"]}
{"id": "C45", "title": "Keyring survives a crash during import", "statement": "If an import is cut off after any number of bytes reached the file, every key imported before remains exportable with its original value, the interrupted key is either absent or complete, and later imports remain retrievable.", "quantifier": "every keyring, every crash point", "why_tests_cant": "every byte offset of every record", "anchors": ["wizard/keyring.c:ImportKeyringKey", "wizard/keyring.c:ExportKeyringKey"]}
{"id": "C46", "title": "In-memory key store", "statement": "GetKeyInfo(id) returns the key last stored with SetKeyInfo(id,·), for every history of stores, and never aborts for a stored id.", "quantifier": "every history of stores and lookups", "why_tests_cant": "unbounded histories; depends on cipher state restored between calls", "anchors": ["wizard/key.c:SetKeyInfo", "wizard/key.c:GetKeyInfo", "wizard/key.c:GenerateSessionKey"]}
{"id": "C47", "title": "Resource accounting balances", "statement": "For every history of acquisitions and matching releases, the amount in use reported equals the sum of granted minus released amounts, a refused acquisition changes nothing, and the amount never goes negative.", "quantifier": "every history of acquire/release calls on each resource", "why_tests_cant": "unbounded histories and 64-bit wrap-around", "anchors": ["wizard/resource.c:AcquireWizardResource", "wizard/resource.c:RelinquishWizardResource"]}
{"id": "C48", "title": "Resource limits are enforced", "statement": "After any history, the amount of memory, map, disk or file resource granted is below the limit in force, for every limit other than unlimited, and requests of any size are compared correctly.", "quantifier": "every history, limit and request size in the 64-bit range", "why_tests_cant": "64-bit boundary values", "anchors": ["wizard/resource.c:AcquireWizardResource", "wizard/resource.c:SetWizardResourceLimit"]}
{"id": "C49", "title": "Virtual memory acquisition keeps the books", "statement": "AcquireVirtualMemory followed by RelinquishVirtualMemory restores the resource counters, and a refused or failed acquisition leaves them unchanged and never aborts.", "quantifier": "every combination of limit refusals and allocation failures", "why_tests_cant": "fault combinations a test cannot schedule", "anchors": ["wizard/memory.c:AcquireVirtualMemory", "wizard/memory.c:RelinquishVirtualMemory"]}
{"id": "C50", "title": "Array allocation cannot overflow", "statement": "AcquireQuantumMemory(count,quantum) never returns a block smaller than count*quantum bytes computed without wrap-around; products that do not fit are refused.", "quantifier": "every pair of 64-bit counts and sizes", "why_tests_cant": "2^128 argument pairs", "anchors": ["wizard/memory.c:AcquireQuantumMemory", "wizard/memory.c:ResizeQuantumMemory"]}
{"id": "C51", "title": "Option parsing", "statement": "ParseWizardOption maps each mnemonic in a table to its value and inverts WizardOptionToMnemonic; lists of flags are OR-ed together; a '!' prefix removes a flag.", "quantifier": "every option table entry, every list of mnemonics", "why_tests_cant": "all lists of flags", "anchors": ["wizard/option.c:ParseWizardOption", "wizard/option.c:WizardOptionToMnemonic"]}
{"id": "C52", "title": "Exception log", "statement": "ThrowException records every exception except an immediate exact repetition, the reported severity is that of the most recent, CatchException delivers each to the right handler in order, and ClearWizardException empties the log.", "quantifier": "every history of throw/catch/clear/inherit", "why_tests_cant": "unbounded histories", "anchors": ["wizard/exception.c:ThrowException", "wizard/exception.c:CatchException", "wizard/exception.c:InheritException", "wizard/exception.c:ClearWizardException"]}
{"id": "C53", "title": "XML content escaping is reversible", "statement": "Text written as XML content with predefined entities escaped is restored exactly by entity decoding, and the escaped text contains no '<', '>' or '\"' and '&' only as the start of an entity.", "quantifier": "every text", "why_tests_cant": "all texts", "anchors": ["wizard/xml-tree.c:CanonicalXMLContent", "wizard/xml-tree.c:ParseEntities"]}
{"id": "C54", "title": "XML children stay in document order", "statement": "After any sequence of AddChild/InsertTag calls, traversing a node's children in document order lists them by offset, in insertion order for equal offsets, each exactly once; same-tag traversal lists exactly the children with that tag in the same order.", "quantifier": "every sequence of insertions with any offsets and tags", "why_tests_cant": "three intrusive lists must agree for every history", "anchors": ["wizard/xml-tree.c:InsertTagIntoXMLTree", "wizard/xml-tree.c:AddChildToXMLTree", "wizard/xml-tree.c:GetNextXMLTreeTag", "wizard/xml-tree.c:GetXMLTreeOrdered"]}
{"id": "C55", "title": "XML entity definitions cannot loop", "statement": "A document whose entities refer to each other in a cycle is rejected as circular, so expansion always terminates.", "quantifier": "every set of entity definitions", "why_tests_cant": "all reference graphs", "anchors": ["wizard/xml-tree.c:ValidateEntities", "wizard/xml-tree.c:ParseEntities"]}
{"id": "C56", "title": "UTF-16 conversion", "statement": "ConvertUTF16ToUTF8 turns a BOM-prefixed UTF-16 buffer into the UTF-8 of the same code points and writes only inside its output buffer.", "quantifier": "every UTF-16 buffer", "why_tests_cant": "all inputs; overruns may be silent", "anchors": ["wizard/xml-tree.c:ConvertUTF16ToUTF8"]}
{"id": "C57", "title": "Path components reassemble", "statement": "For every path, the head and tail parts returned by GetPathComponent re-join to the path, root and extension re-join to it, and no component exceeds the path buffer.", "quantifier": "every path", "why_tests_cant": "all strings", "anchors": ["wizard/utility.c:GetPathComponent", "wizard/utility.c:AppendFileExtension"]}
{"id": "C58", "title": "In-memory blob streams", "statement": "Reading a mapped or attached blob in any sequence of request sizes returns its bytes in order, each once, reports end-of-file exactly when a request could not be satisfied in full, and TellBlob is the number of bytes consumed.", "quantifier": "every content and every sequence of request sizes", "why_tests_cant": "all request sequences", "anchors": ["wizard/blob.c:ReadBlob", "wizard/blob.c:ReadBlobByte", "wizard/blob.c:TellBlob"]}
{"id": "C59", "title": "Heap pool blocks never overlap", "statement": "In the built-in allocator, live blocks returned by AcquireWizardMemory are disjoint, lie inside acquired segments and are at least as large as requested, and releasing coalesces with free neighbours without corrupting live blocks, for any allocation history.", "quantifier": "every history of acquire, resize and release", "why_tests_cant": "unbounded histories of sizes", "anchors": ["wizard/memory.c:AcquireBlock", "wizard/memory.c:RelinquishWizardMemory", "wizard/memory.c:ExpandHeap", "wizard/memory.c:ResizeWizardMemory"]}
{"id": "C60", "title": "Heap expansion satisfies the request that caused it", "statement": "If the system grants a new segment, the allocation that triggered the expansion succeeds.", "quantifier": "every request size", "why_tests_cant": "only certain sizes near segment multiples fail", "anchors": ["wizard/memory.c:ExpandHeap", "wizard/memory.c:AcquireBlock"]}
{"id": "C61", "title": "Tokenizer makes progress", "statement": "With room for at least one character (extent of two or more), a GetNextToken call on a text that is not all blank and whose parentheses are closed returns an end position strictly beyond the start, so a loop over the tokens of any text terminates.", "quantifier": "every text, every extent of at least two", "why_tests_cant": "all texts and all token shapes", "anchors": ["wizard/token.c:GetNextToken"]}
{"id": "C62", "title": "Lookups during a hash-map iteration", "statement": "Looking up keys with GetValueFromHashmap between GetNextKeyInHashmap calls does not disturb the iteration: each binding is still returned exactly once.", "quantifier": "every map and every interleaving of lookups with iterator steps", "why_tests_cant": "depends on which keys collide in a bucket", "anchors": ["wizard/hashmap.c:GetValueFromHashmap", "wizard/hashmap.c:GetNextKeyInHashmap"]}
{"id": "C63", "title": "Removal by value in splay trees", "statement": "RemoveNodeByValueFromSplayTree and DeleteNodeByValueFromSplayTree remove exactly one binding, the one with the smallest key among those bound to the value, and return its key (report success); if no binding has the value nothing changes.", "quantifier": "every history of calls and every value", "why_tests_cant": "unbounded histories and tree shapes", "anchors": ["wizard/splay-tree.c:RemoveNodeByValueFromSplayTree", "wizard/splay-tree.c:DeleteNodeByValueFromSplayTree"]}
{"id": "C64", "title": "Cloned splay tree has the same bindings", "statement": "CloneSplayTree returns a tree with exactly the bindings of the original, mapped through the key and value cloners, in the same order, and leaves the bindings of the original unchanged.", "quantifier": "every history that built the tree, every order-preserving key cloner and every value cloner", "why_tests_cant": "unbounded tree shapes", "anchors": ["wizard/splay-tree.c:CloneSplayTree"]}
{"id": "C65", "title": "AES conforms to FIPS 197", "statement": "For keys of 16, 24 and 32 bytes EncipherAESBlock and DecipherAESBlock after SetAESKey compute exactly the Cipher and InvCipher of FIPS 197; shorter keys behave as the key padded with zero bytes to 16, others as the key cut to the next smaller standard size.", "quantifier": "every key of every length and every block", "why_tests_cant": "2^128 blocks times 2^256 keys; a wrong table entry is hit by few test vectors", "anchors": ["wizard/aes.c:SetAESKey", "wizard/aes.c:EncipherAESBlock", "wizard/aes.c:DecipherAESBlock"]}
{"id": "C66", "title": "ChaCha conforms to published ChaCha20", "statement": "After SetChachaKey with a 32-byte or 16-byte key and SetChachaNonce, EncipherChachaBlock xors its block with the keystream block ChaCha20 defines for that key, block counter and nonce, whatever keys the object had before; without SetChachaNonce counter and nonce are zero.", "quantifier": "every key, nonce, counter, block and earlier state", "why_tests_cant": "2^256 keys times 2^128 counters and nonces", "anchors": ["wizard/chacha.c:SetChachaKey", "wizard/chacha.c:SetChachaNonce", "wizard/chacha.c:EncipherChachaBlock"]}
{"id": "C67", "title": "The key set last determines the cipher", "statement": "After SetChachaKey the block function depends only on the key given, not on keys set before.", "quantifier": "every key of every length and every sequence of earlier keys", "why_tests_cant": "unbounded histories of key changes", "anchors": ["wizard/chacha.c:SetChachaKey", "wizard/cipher.c:SetCipherKey"]}
{"id": "C68", "title": "Cipher modes conform to NIST SP 800-38A", "statement": "For every block cipher EncipherCipher computes the ECB, CBC, CFB (8-bit), OFB or CTR encipherment of SP 800-38A of the message followed by the documented padding, starting from the cipher's nonce, and DecipherCipher the inverse mode; AcquireCipherInfo, SetCipherNonce and ResetCipherNonce always leave a nonce of exactly one block.", "quantifier": "every block cipher of at most 128 bytes, key, nonce, mode and message", "why_tests_cant": "unbounded messages; a dropped chaining step cancels out in round-trip tests", "anchors": ["wizard/cipher.c:EncipherCipher", "wizard/cipher.c:DecipherCipher", "wizard/cipher.c:GenerateCipherNonce", "wizard/cipher.c:SetCipherNonce", "wizard/cipher.c:ResetCipherNonce", "wizard/cipher.c:AcquireCipherInfo"]}
{"id": "C69", "title": "Messages under one cipher do not share keystream", "statement": "Two messages enciphered one after the other with one CipherInfo in CTR or OFB mode are not xored with the same keystream.", "quantifier": "every key, nonce and pair of messages", "why_tests_cant": "a test compares each ciphertext with its own message only", "anchors": ["wizard/cipher.c:EncipherCTRMode", "wizard/cipher.c:EncipherOFBMode", "utilities/encipher.c:EncipherContent"]}
{"id": "C70", "title": "Serpent conforms to the published cipher", "statement": "After SetSerpentKey with any key, of which at most 32 bytes are used, and whatever key was set before, EncipherSerpentBlock and DecipherSerpentBlock compute the Serpent of Anderson, Biham and Knudsen on the first 16 bytes of the buffer, and no access leaves the array of round keys.", "quantifier": "every key of every length, every block, every earlier state", "why_tests_cant": "2^384 inputs; a round-trip test passes with any wrong but invertible S-box or key schedule", "anchors": ["wizard/serpent.c:SetSerpentKey", "wizard/serpent.c:EncipherSerpentBlock", "wizard/serpent.c:DecipherSerpentBlock"]}
{"id": "C71", "title": "Twofish conforms to the published cipher", "statement": "After SetTwofishKey with a key of 16, 24 or at least 32 bytes, EncipherTwofishBlock computes the Twofish of Schneier et al. for the key (its first 32 bytes) and DecipherTwofishBlock its inverse.", "quantifier": "every such key and every block", "why_tests_cant": "2^384 inputs; a round-trip test passes with any wrong S-box, matrix or key schedule because the cipher is a Feistel network", "anchors": ["wizard/twofish.c:SetTwofishKey", "wizard/twofish.c:EncipherTwofishBlock", "wizard/twofish.c:DecipherTwofishBlock"]}
{"id": "C72", "title": "Every byte of a Twofish key matters, and short keys follow the published rule", "statement": "For keys of every length up to 32 bytes no byte of the key is ignored, and a key of another length than 16, 24 or 32 bytes is filled with zero bytes to the next of these as the Twofish paper prescribes.", "quantifier": "every key length and every key", "why_tests_cant": "no finite set of keys shows which bytes are read for every key length", "anchors": ["wizard/twofish.c:SetTwofishKey"]}
{"id": "C73", "title": "SHA-224 is the published SHA-224", "statement": "For every message the digest of the SHA2224 hash type is the SHA-224 of FIPS 180-4.", "quantifier": "every message and split", "why_tests_cant": "the error shows only for messages of more than one block", "anchors": ["wizard/sha2224.c:TransformSHA2224", "wizard/sha2224.c:FinalizeSHA2224"]}
{"id": "C74", "title": "SHA-3 is FIPS 202", "statement": "For every message the digests of the SHA3224, SHA3256, SHA3384 and SHA3512 hash types are those of FIPS 202.", "quantifier": "every message and split", "why_tests_cant": "the padding must be right for every residue of the message length", "anchors": ["wizard/sha3.c:FinalizeSHA3", "wizard/sha3.c:UpdateSHA3"]}
{"id": "C75", "title": "The length in the padding is that of the message", "statement": "However long the strings given to UpdateHash are, the length a hash of the SHA-1 and SHA-2 families appends is that of the whole message.", "quantifier": "every sequence of strings of every length a C caller can pass", "why_tests_cant": "no test hashes strings of more than 4 GiB, and a split file does not show the fault", "anchors": ["wizard/sha1.c:UpdateSHA1", "wizard/sha2256.c:UpdateSHA2256", "wizard/sha2224.c:UpdateSHA2224"]}
{"id": "C76", "title": "UpdateHash returns", "statement": "UpdateHash returns for every string, whatever was given to the object before.", "quantifier": "every history of messages and strings of every length", "why_tests_cant": "termination for every length and queue state", "anchors": ["wizard/sha3.c:UpdateSHA3", "wizard/hash.c:UpdateHash"]}
{"id": "C77", "title": "Random values lie in the documented interval", "statement": "Every value GetRandomValue and GetPseudoRandomValue return lies in [0.0, 1.0).", "quantifier": "every generator state and every key drawn", "why_tests_cant": "1.0 is returned for a few words out of 2^64 only", "anchors": ["wizard/random.c:GetRandomValue", "wizard/random.c:GetPseudoRandomValue"]}
{"id": "C78", "title": "A key survives a move between key rings", "statement": "An object filled by ExportKeyringKey, imported with ImportKeyringKey into another key ring, can be exported from there again, whatever protocol its record had.", "quantifier": "every record of every protocol, every target key ring", "why_tests_cant": "old protocol records do not arise from the current writer, so no round-trip test meets them", "anchors": ["wizard/keyring.c:ImportKeyringKey", "wizard/keyring.c:ExportKeyringKey"]}
{"id": "C79", "title": "A lock left by a dead process does not block the file", "statement": "If the process that owns the lock file of a path has died, an AcquireFileInfo call for that path, with no other process running, succeeds.", "quantifier": "every state of the lock file with a dead owner", "why_tests_cant": "needs a process to die between two system calls", "anchors": ["wizard/file.c:AcquireFileLock", "wizard/file.c:AcquireFileInfo"]}
{"id": "C80", "title": "Stored keys are enciphered independently", "statement": "For two keys stored with SetKeyInfo under different ids, what the process keeps in memory does not reveal their exclusive or to someone without the session key.", "quantifier": "every history of stores, every two ids", "why_tests_cant": "a relation between two ciphertexts, not a wrong result of one call", "anchors": ["wizard/key.c:SetKeyInfo", "wizard/key.c:GetKeyInfo"]}
{"id": "C81", "title": "The default memory limit is the memory of the machine", "statement": "Without limits in the environment, the default limit of the memory resource is about the physical memory, so that AcquireVirtualMemory for sizes the machine can provide is not refused.", "quantifier": "every number of pages the system reports", "why_tests_cant": "depends on the machine; the test suite sets its own limits or asks for little", "anchors": ["wizard/resource.c:ResourceComponentGenesis", "wizard/memory.c:AcquireVirtualMemory"]}
{"id": "C82", "title": "Sibling traversal of an XML node visits every tag once", "statement": "Starting from the first child of an XML node and following GetXMLTreeSibling lists, for every tag that occurs among the children, exactly the first child with that tag.", "quantifier": "every history of AddChildToXMLTree and InsertTagIntoXMLTree calls, in any order of offsets", "why_tests_cant": "The chain depends on the order in which children were attached; tests attach them in document order.", "anchors": ["wizard/xml-tree.c:InsertTagIntoXMLTree", "wizard/xml-tree.c:GetXMLTreeSibling"]}
{"id": "C83", "title": "Pruning a child removes it and nothing else", "statement": "After PruneTagFromXMLTree of a child, the traversals of the children of its former parent, in document order and by tag, list exactly the other children in the same order, and the children of every other node are unchanged.", "quantifier": "every history of AddChildToXMLTree and InsertTagIntoXMLTree calls, every child", "why_tests_cant": "Three intrusive lists share the nodes; which links are wrong depends on the position of the child in each of them.", "anchors": ["wizard/xml-tree.c:PruneTagFromXMLTree", "wizard/xml-tree.c:GetXMLTreeChild"]}
{"id": "C84", "title": "Entity decoding restores what a document means", "statement": "Reading content or an attribute replaces every character reference by its character, every reference to a predefined entity by its character and every reference to a declared entity by its text, and leaves every other byte unchanged.", "quantifier": "every list of declarations, every content, every buffer ownership", "why_tests_cant": "References of any length are replaced in place or in a growing buffer; tests cover a few entities of a few lengths.", "anchors": ["wizard/xml-tree.c:ParseEntities"]}
{"id": "C85", "title": "Line ends are normalised and nothing else is touched", "statement": "Reading content turns every CR LF and every CR into one LF, changes no other byte, and reads and writes nothing beyond the text.", "quantifier": "every content and everything that follows it in memory", "why_tests_cant": "The fault depends on the last bytes of the text and on what lies behind it.", "anchors": ["wizard/xml-tree.c:ParseEntities"]}
{"id": "C86", "title": "Attribute values are normalised as XML prescribes", "statement": "Reading an attribute value replaces references as in content and every other white-space character, also in entity texts, by a space; for attributes not declared as CDATA the result is the words of the value separated by single spaces.", "quantifier": "every list of declarations, every value", "why_tests_cant": "White space is removed in place while the value is scanned; tests cover a few arrangements of spaces.", "anchors": ["wizard/xml-tree.c:ParseEntities"]}
{"id": "C87", "title": "Path components are split without loss", "statement": "For every path, GetPathComponents returns components without separators that give the path when joined by separators; and every list of such components is what the joined path is split into, empty components included.", "quantifier": "every path, every list of components", "why_tests_cant": "The number of components is counted in one loop and they are cut in another; the two must agree for every arrangement of separators.", "anchors": ["wizard/utility.c:GetPathComponents"]}
{"id": "C88", "title": "AppendFileExtension replaces exactly the extension", "statement": "For every file name, AppendFileExtension replaces the extension or adds one to a name that has none, and leaves directory and name as they are.", "quantifier": "every file name, every extension that fit in the path buffer", "why_tests_cant": "What counts as an extension depends on where dots and separators are; tests have ordinary names.", "anchors": ["wizard/utility.c:AppendFileExtension", "wizard/utility.c:GetPathComponent"]}
{"id": "C89", "title": "ChopPathComponents removes the given number of components", "statement": "For every path and every number, ChopPathComponents removes that many components from the end; a path with fewer becomes empty.", "quantifier": "every path without filesystem or subnode, every number", "why_tests_cant": "The path is shortened in place, once per component.", "anchors": ["wizard/utility.c:ChopPathComponents"]}
{"id": "C90", "title": "XML paths lead to the named element", "statement": "After every history of building a tree, GetXMLTreePath with a path of tags leads from a node to the first child with the first tag, from there to the first child with the second tag, and so on, and tag[n] to the n-th child with that tag, whatever files there are in the working directory.", "quantifier": "every history of making, adding and inserting nodes, every node, every path", "why_tests_cant": "The path is cut by functions made for file names, which look at the file system; tests have short tags and few children.", "anchors": ["wizard/xml-tree.c:GetXMLTreePath", "wizard/utility.c:GetPathComponents", "wizard/utility.c:GetPathComponent"]}
{"id": "C91", "title": "Adding an XML path is found again and disturbs nothing", "statement": "After every history, AddPathToXMLTree returns a node that GetXMLTreePath finds under the same path; it only adds children, every path that led to a node still leads to it, and a path that exists already is left as it is.", "quantifier": "every history, every node, every path of tags, every offset", "why_tests_cant": "Insertion at an offset can displace the first child with a tag; only an argument over all trees excludes it.", "anchors": ["wizard/xml-tree.c:AddPathToXMLTree", "wizard/xml-tree.c:GetXMLTreePath", "wizard/xml-tree.c:AddChildToXMLTree"]}
{"id": "C92", "title": "Writes to a blob appear in the file in order, each once", "statement": "A file opened for writing holds, after any sequence of WriteBlob, WriteBlobByte, WriteBlobString and SetBlobExtent calls, the bytes written so far in order, and every call that writes reports all its bytes.", "quantifier": "every sequence of calls, every data", "why_tests_cant": "Short writes and long writes take different branches and SetBlobExtent moves the position; tests write a few sizes.", "anchors": ["wizard/blob.c:WriteBlob", "wizard/blob.c:WriteBlobStream", "wizard/blob.c:SetBlobExtent"]}
{"id": "C93", "title": "A refused blob call leaves the stream usable", "statement": "When SetBlobExtent or a write is refused by a blob, the blob can still be read as before.", "quantifier": "every file, every extent, every read after it", "why_tests_cant": "Whether the file is mapped depends on its size and on the resources of the moment.", "anchors": ["wizard/blob.c:SetBlobExtent", "wizard/blob.c:WriteBlobStream", "wizard/blob.c:ReadBlob"]}
{"id": "C94", "title": "ReadBlobChunk returns", "statement": "ReadBlobChunk returns the bytes asked for, or those left, whatever errno was when it was called.", "quantifier": "every file, every length, every errno", "why_tests_cant": "It depends on what an earlier, unrelated call left in errno.", "anchors": ["wizard/blob.c:ReadBlobChunk"]}
{"id": "C95", "title": "A request for memory that cannot be met is refused with NULL", "statement": "For every size, AcquireWizardMemory of the memory pool returns NULL when the size cannot be met, and nothing else changes: no block smaller than the size is returned, no assertion fails, no memory outside is written.", "quantifier": "every history of the pool, every size", "why_tests_cant": "The arithmetic on sizes wraps around only for sizes near the end of the address space, where a test gets nothing else from the system.", "anchors": ["wizard/memory.c:AcquireWizardMemory", "wizard/memory.c:AcquireBlock", "wizard/memory.c:ExpandHeap"]}
{"id": "C96", "title": "Releasing everything makes the memory whole again", "statement": "After every history that ends with every block released, a request that fits into a segment the pool holds is met without asking the system for more.", "quantifier": "every history of acquiring, resizing, writing and releasing, in any order, every size", "why_tests_cant": "Adjacent free blocks must be joined in whatever order they were released; fragmentation shows only in particular orders.", "anchors": ["wizard/memory.c:RelinquishWizardMemory", "wizard/memory.c:AcquireWizardMemory", "wizard/memory.c:InsertFreeBlock"]}
{"id": "C97", "title": "DestroyWizardMemory gives back everything", "statement": "After every history DestroyWizardMemory gives back to the system each segment the system granted, once.", "quantifier": "every history of the pool", "why_tests_cant": "The pool changes its behaviour after 1024 segments.", "anchors": ["wizard/memory.c:DestroyWizardMemory", "wizard/memory.c:ExpandHeap", "wizard/memory.c:AcquireWizardMemory"]}
{"id": "C98", "title": "RelinquishWizardMemory zeros the memory", "statement": "As documented, RelinquishWizardMemory zeros the memory of the block before it is free for reuse.", "quantifier": "every history of the pool, every block and contents", "why_tests_cant": "Released memory cannot be read by a test that stays inside the rules.", "anchors": ["wizard/memory.c:RelinquishWizardMemory"]}
{"id": "C99", "title": "A file enciphered by the encipher program is restored by the decipher program", "statement": "With the same passphrase, key, cipher, mode, chunk size, HMAC and compression, the output of decipher for the output of encipher is the original file.", "quantifier": "every file content and size, every chunk size, mode, invertible cipher, key, nonce, padding, HMAC and lossless compression, and every length of the properties in front", "why_tests_cant": "Files of all sizes relative to chunks and blocks; the sizes that fail are one in thousands.", "anchors": ["utilities/encipher.c:EncipherContent", "utilities/decipher.c:DecipherContent", "wizard/cipher.c:EncipherCipher", "wizard/blob.c:EOFBlob"]}
{"id": "C100", "title": "An altered enciphered file is refused", "statement": "When HMACs are used, decipher refuses a file that differs from what encipher wrote: it neither succeeds nor delivers altered data.", "quantifier": "every enciphered file and every alteration, in particular cutting it and exchanging chunks", "why_tests_cant": "The alterations of a file cannot be enumerated.", "anchors": ["utilities/encipher.c:EncipherContent", "utilities/decipher.c:DecipherContent"]}
{"id": "C101", "title": "No two chunks of an enciphered file share a keystream", "statement": "The enciphered bytes of two parts of a file do not reveal how these parts differ.", "quantifier": "every file of more than one chunk, every cipher, key and nonce, in the modes that combine the file with a stream of bytes", "why_tests_cant": "A statement about all keys and files; the outcome of a test looks random either way.", "anchors": ["utilities/encipher.c:EncipherContent", "wizard/cipher.c:EncipherCipher"]}
{"id": "C102", "title": "Deciphering a damaged or hostile file is memory safe", "statement": "Whatever bytes an enciphered file contains, decipher reads and writes only inside its buffers.", "quantifier": "every file content and length, every cipher, mode, chunk size, HMAC size and behaviour of the decompression", "why_tests_cant": "Hostile files cannot be enumerated.", "anchors": ["utilities/decipher.c:DecipherContent", "wizard/cipher.c:DecipherCipher", "wizard/blob.c:ReadBlobChunk"]}
{"id": "C103", "title": "A generated secret key can be got back with its id and passphrase", "statement": "After GenerateSecretKey, AuthenticateSecretKey with the id and the passphrase returns True and delivers the same key, from any object; the keys that were in the ring stay.", "quantifier": "every key ring, passphrase, key length, sequence of random draws, schedule of short transfers, and every later object", "why_tests_cant": "The key passes through a cipher, a file and a digest; all passphrases, rings and draws matter.", "anchors": ["wizard/secret.c:GenerateSecretKey", "wizard/secret.c:AuthenticateSecretKey", "wizard/authenticate.c:GenerateAuthenticateKey", "wizard/authenticate.c:AuthenticateKey"]}
{"id": "C104", "title": "GenerateSecretKey returns True only if the key is in the key ring", "statement": "As documented, GenerateSecretKey returns WizardTrue only if a key is generated and successfully added to the secret key ring.", "quantifier": "every key ring, every behaviour of the system calls", "why_tests_cant": "Failures of the disk cannot be produced at will.", "anchors": ["wizard/secret.c:GenerateSecretKey", "wizard/keyring.c:ImportKeyringKey"]}
{"id": "C105", "title": "Only the right passphrase authenticates", "statement": "AuthenticateSecretKey returns True only if the HMAC of the key it delivers, under the passphrase given, is the id asked for.", "quantifier": "every content of the key ring file, every id, passphrase and behaviour of the system calls", "why_tests_cant": "The files an attacker may leave cannot be enumerated.", "anchors": ["wizard/secret.c:AuthenticateSecretKey"]}
{"id": "C106", "title": "GenerateSecretKey returns", "statement": "For every key length and key ring GenerateSecretKey ends.", "quantifier": "every key length, key ring, passphrase and sequence of random draws", "why_tests_cant": "A loop that ends with high probability for some lengths and never for others.", "anchors": ["wizard/secret.c:GenerateSecretKey", "utilities/encipher.c:EncipherCommand"]}
{"id": "C107", "title": "No two secret keys are enciphered with the same stream", "statement": "The records of two generated keys do not reveal how the keys differ.", "quantifier": "every passphrase, nonce and pair of keys generated by one object", "why_tests_cant": "A statement about all keys; the outcome of a test looks random either way.", "anchors": ["wizard/secret.c:GenerateSecretKey", "wizard/secret.c:AcquireSecretInfo"]}
{"id": "C108", "title": "A generated key is recorded with its own protocol and time stamp", "statement": "The record GenerateSecretKey adds has the protocol of the library and the time of the object that made it.", "quantifier": "every key ring, time and key", "why_tests_cant": "The time stamp depends on the whole history of the key ring file.", "anchors": ["wizard/secret.c:GenerateSecretKey", "wizard/keyring.c:ExportKeyringKey"]}
{"id": "C109", "title": "Generating a key does not damage a key ring of an older protocol", "statement": "After GenerateSecretKey on a key ring that holds records of protocol 1.0, the new key can be used.", "quantifier": "every key ring with records of both protocols in any order", "why_tests_cant": "Old key rings of all contents are not at hand in a test.", "anchors": ["wizard/secret.c:GenerateSecretKey", "wizard/keyring.c:ImportKeyringKey"]}
{"id": "C110", "title": "Reading a well-formed XML document gives the tree it writes", "statement": "NewXMLTree on a well-formed document returns a tree whose elements, attributes, character content and nesting are those the document writes, and raises no warning.", "quantifier": "every well-formed document without an internal subset: any elements, attributes, texts, references, comments, CDATA sections, instructions and white space, nested to any depth", "why_tests_cant": "Documents of all shapes and depths cannot be enumerated.", "anchors": ["wizard/xml-tree.c:NewXMLTree", "wizard/xml-tree.c:ParseOpenTag", "wizard/xml-tree.c:ParseCloseTag", "wizard/xml-tree.c:ParseCharacterContent"]}
{"id": "C111", "title": "Processing instructions are found by target, in order", "statement": "GetXMLTreeProcessingInstructions returns the instructions of the document with the given target, in the order of the document.", "quantifier": "every well-formed document and target", "why_tests_cant": "Any number of instructions with any targets at any places.", "anchors": ["wizard/xml-tree.c:GetXMLTreeProcessingInstructions", "wizard/xml-tree.c:ParseProcessingInstructions"]}
{"id": "C112", "title": "Writing an XML tree and reading it back gives the same tree", "statement": "The text XMLTreeInfoToXML returns is a document that NewXMLTree reads, without a warning, as a tree with the same elements, attributes, character content, nesting and processing instructions.", "quantifier": "every tree: any names, attributes, texts, offsets and instructions, nested to any depth", "why_tests_cant": "Trees of all shapes cannot be enumerated; the positions of children in the content matter.", "anchors": ["wizard/xml-tree.c:XMLTreeInfoToXML", "wizard/xml-tree.c:XMLTreeTagToXML", "wizard/xml-tree.c:EncodePredefinedEntities"]}
{"id": "C113", "title": "Writing an XML tree is memory safe", "statement": "XMLTreeInfoToXML on any element of a tree read by NewXMLTree stays within its buffers and dereferences no NULL pointer.", "quantifier": "every tree and every element of it, default attributes and processing instructions", "why_tests_cant": "Buffer sizes depend on the lengths of all texts and on the position of each element.", "anchors": ["wizard/xml-tree.c:XMLTreeInfoToXML", "wizard/xml-tree.c:XMLTreeTagToXML", "wizard/xml-tree.c:EncodePredefinedEntities"]}
{"id": "C114", "title": "Saved entropy is restored", "statement": "What AcquireRandomInfo saves in the entropy reservoir on disk is what the next AcquireRandomInfo reads from it, with its time stamp; a save that could not be written is reported.", "quantifier": "every digest, every earlier content of the file, every protocol read before, every pattern of short, interrupted and failed writes", "why_tests_cant": "The earlier content of the file and the behaviour of the disk range over all histories.", "anchors": ["wizard/random.c:SaveEntropyToReservoir", "wizard/random.c:GetEntropyFromReservoir", "wizard/random.c:AcquireRandomInfo"]}
{"id": "C115", "title": "A damaged entropy reservoir is harmless", "statement": "Whatever the reservoir file contains, reading it returns: with entropy that passed its checksum, or with none.", "quantifier": "every content of the file", "why_tests_cant": "All file contents cannot be tried.", "anchors": ["wizard/random.c:GetEntropyFromReservoir", "wizard/file.c:GetFilePath"]}
{"id": "C116", "title": "A crash while saving entropy is harmless", "statement": "If the process dies at any point of saving the reservoir, later processes can still read the reservoir, with entropy or without.", "quantifier": "every crash point, every earlier content, every pattern of short and interrupted writes", "why_tests_cant": "A test cannot crash at every byte of every file.", "anchors": ["wizard/random.c:SaveEntropyToReservoir", "wizard/random.c:GetEntropyFromReservoir"]}
{"id": "C117", "title": "Damaged entropy is not used", "statement": "If the entropy stored in the reservoir is changed within 64 consecutive bits, the reservoir yields nothing.", "quantifier": "every entropy, every damage within 64 consecutive bits, every rest of the file", "why_tests_cant": "There are too many damages to try.", "anchors": ["wizard/random.c:GetEntropyFromReservoir", "wizard/string.c:GetStringInfoCRC"]}
{"id": "C118", "title": "Threads can share a linked list", "statement": "Threads that use one linked list at the same time get the answers of a list whose calls are made one after the other, in an order that respects each thread's own; no thread crashes, and the list never holds more values than its capacity.", "quantifier": "every number of threads, every sequence of calls of each, every interleaving", "why_tests_cant": "The number of interleavings is unbounded; a test sees a few that the scheduler happens to choose.", "anchors": ["wizard/hashmap.c:AppendValueToLinkedList", "wizard/hashmap.c:GetValueFromLinkedList", "wizard/hashmap.c:RemoveLastElementFromLinkedList", "wizard/semaphore.c:LockSemaphoreInfo"]}
{"id": "C119", "title": "Threads can share a hash map", "statement": "Threads that use one hash map at the same time get the answers of a finite map whose calls are made one after the other; a thread that alone changes the entry of a key finds what it would find if it were alone.", "quantifier": "every number of threads, every sequence of calls of each, every interleaving", "why_tests_cant": "The number of interleavings is unbounded; a test sees a few that the scheduler happens to choose.", "anchors": ["wizard/hashmap.c:PutEntryInHashmap", "wizard/hashmap.c:GetValueFromHashmap", "wizard/hashmap.c:RemoveEntryFromHashmap", "wizard/hashmap.c:GetNextKeyInHashmap"]}
{"id": "C120", "title": "Threads can share a splay tree", "statement": "Threads that use one splay tree at the same time get the answers of an ordered map whose calls are made one after the other; no thread crashes, and an entry that nobody removes is always found.", "quantifier": "every number of threads, every sequence of calls of each, every interleaving", "why_tests_cant": "The number of interleavings is unbounded; a test sees a few that the scheduler happens to choose.", "anchors": ["wizard/splay-tree.c:AddValueToSplayTree", "wizard/splay-tree.c:GetValueFromSplayTree", "wizard/splay-tree.c:RemoveNodeFromSplayTree", "wizard/splay-tree.c:GetNextKeyInSplayTree"]}
{"id": "C121", "title": "Documents whose tags do not match are reported", "statement": "A document made of well-formed tags and text is read without a warning if and only if the tags form one element: wrong and missing closing tags, second roots and text outside the root are reported.", "quantifier": "every sequence of tags with attributes and text, at every nesting depth", "why_tests_cant": "There are infinitely many ways to break the nesting of a document.", "anchors": ["wizard/xml-tree.c:NewXMLTree", "wizard/xml-tree.c:ParseOpenTag", "wizard/xml-tree.c:ParseCloseTag"]}
{"id": "C122", "title": "A component is set up once however many threads come first", "statement": "When several threads use a component of the library (log, locale, configuration, MIME types, resources) for the first time at the same time, its semaphore is made once and its table loaded once, one thread at a time is inside, nobody waits forever, and every call that returns sees the same table.", "quantifier": "every number of threads, every interleaving of their steps", "why_tests_cant": "A race between first uses shows only in rare interleavings, and only once per process.", "anchors": ["wizard/semaphore.c:ActivateSemaphoreInfo", "wizard/semaphore-private.h:InitializeWizardMutex", "wizard/log.c:IsLogCacheInstantiated", "wizard/locale.c:IsLocaleTreeInstantiated", "wizard/configure.c:IsConfigureCacheInstantiated", "wizard/mime.c:IsMimeCacheInstantiated"]}
{"id": "C123", "title": "Threads can share exceptions", "statement": "Threads may throw, clear, catch and inherit at the same exceptions at the same time: no thread waits forever, and an exception that was thrown is in the log or was delivered to a handler.", "quantifier": "every number of threads and exceptions, every sequence of calls of each, every interleaving", "why_tests_cant": "Deadlocks and lost reports need particular interleavings of several threads.", "anchors": ["wizard/exception.c:ThrowException", "wizard/exception.c:CatchException", "wizard/exception.c:ClearWizardException", "wizard/exception.c:InheritException", "wizard/semaphore.c:LockSemaphoreInfo"]}
{"id": "C124", "title": "Log entries and names of log files are what their formats say", "statement": "The text of a log event is its format with every %x replaced by what it stands for (\\n and \\r by line ends, an unknown %x left as it is), complete and without touching memory outside the text's buffer; likewise the name of a log file; in the XML format an entry is complete.", "quantifier": "every format, every event, source file, function, client name, domain of any length", "why_tests_cant": "The buffer grows as the text grows: errors show only for particular lengths of formats and texts.", "anchors": ["wizard/log.c:TranslateEvent", "wizard/log.c:TranslateFilename", "wizard/log.c:LogWizardEventList"]}
{"id": "C125", "title": "Log files keep every event", "statement": "Every event logged to a file is kept, in order, as an event of its own, whatever the order of logging and closing the log and however the files are limited; a log file does not grow beyond its limit by more than an entry, and the files of all generations do not take more room than limit and generations allow.", "quantifier": "every sequence of events and closings, every limit, number of generations, naming of files and earlier contents", "why_tests_cant": "Rotation depends on sizes that take millions of events to reach, and on what events contain.", "anchors": ["wizard/log.c:LogWizardEventList", "wizard/log.c:CloseWizardLog", "wizard/log.c:TranslateFilename"]}
{"id": "C126", "title": "Log handlers are those that were named", "statement": "A list of handlers in the log configuration turns on exactly the handlers it names, and the listing of the configuration names exactly the handlers that are on.", "quantifier": "every list of names with any spelling and separators, every set of handlers", "why_tests_cant": "There are unboundedly many ways to write a list.", "anchors": ["wizard/log.c:ParseLogHandlers", "wizard/log.c:ListLogInfo"]}
{"id": "C127", "title": "Logs can be looked up and listed, and masks set", "statement": "Looking up a log by name returns it or reports that there is none; listing logs by a pattern lists those whose names match; setting the event mask returns the previous mask.", "quantifier": "every loaded set of logs, every name and pattern, every mask", "why_tests_cant": "Whether a call returns at all for every name is not settled by trying some.", "anchors": ["wizard/log.c:GetLogInfo", "wizard/log.c:GetLogInfoList", "wizard/log.c:GetLogList", "wizard/log.c:SetLogEventMask", "wizard/log.c:IsEventLogging", "wizard/exception.c:ThrowWizardExceptionList"]}
{"id": "C128", "title": "Timers are stopwatches", "statement": "The elapsed and user times a timer returns are those of a stopwatch: reading stops it, continuing it goes on from the last start, starting it begins a new spell, starting it with reset or resetting it forgets what was measured before.", "quantifier": "every sequence of calls on a timer and every reading of the clocks", "why_tests_cant": "The totals depend on the whole history of calls and on the clocks.", "anchors": ["wizard/timer.c:StartTimer", "wizard/timer.c:StopTimer", "wizard/timer.c:ContinueTimer", "wizard/timer.c:GetElapsedTime", "wizard/timer.c:GetUserTime", "wizard/timer.c:ResetTimer"]}
{"id": "C129", "title": "Timestamps denote their instants", "statement": "The timestamp written for a time is, read by the rules of Internet date/times, that very instant, whatever the time zone of the program.", "quantifier": "every time (of the years that have four digits) and every offset of local time from UTC", "why_tests_cant": "Around midnight and New Year the local date and the UTC date differ in every way; no set of times covers them.", "anchors": ["wizard/string.c:FormatWizardTime"]}
{"id": "C130", "title": "Timestamps are read as the instants they denote", "statement": "Reading a well-formed timestamp gives the instant it denotes and consumes all of it, whatever the zone it names and the zone of the program; in particular, reading what was written gives the same time; no text makes reading undefined.", "quantifier": "every date, time of day and zone of the timestamp, every local zone, every text", "why_tests_cant": "The result depends on the zone of the machine the tests run on.", "anchors": ["wizard/utility.c:ParseWizardTime", "wizard/string.c:FormatWizardTime"]}
{"id": "C131", "title": "Files get the MIME type that fits best", "statement": "Looking up the MIME type of a file returns a configured type whose rule the file meets (its name matches the pattern, or its content has the magic number or text at the offset), of the least priority among those, and nothing if it meets none.", "quantifier": "every set of configured types, every file name and every content", "why_tests_cant": "Rules interact by order and priority; contents are unbounded.", "anchors": ["wizard/mime.c:GetMimeInfo"]}
{"id": "C132", "title": "Magic numbers are read as the bytes they stand for", "statement": "The magic number of a configured type is the bytes its notation (characters and C escapes) stands for; no notation makes reading it undefined.", "quantifier": "every text of a magic number", "why_tests_cant": "Every combination of escapes and characters must be read right.", "anchors": ["wizard/mime.c:LoadMimeCache"]}
{"id": "C133", "title": "What is compressed is restored", "statement": "A message compressed by IncreaseEntropy, of any size, with any supported library and at any level, is restored exactly by RestoreEntropy given a size that is large enough; levels and types that are not supported are reported.", "quantifier": "every message of every length, every level, every type, every content of the buffers, every library that keeps its documentation", "why_tests_cant": "Messages of more than 4 GiB and every boundary of the sizes the libraries take must be right.", "anchors": ["wizard/entropy.c:IncreaseEntropy", "wizard/entropy.c:RestoreEntropy", "wizard/zip.c", "wizard/bzip.c", "wizard/lzma.c"]}
{"id": "C134", "title": "Restoring reports damaged streams", "statement": "RestoreEntropy reports success exactly if the stream it is given is complete and fits the size it is given, and then returns all of the message.", "quantifier": "every stream, every size, every library", "why_tests_cant": "Streams can be cut or damaged anywhere.", "anchors": ["wizard/entropy.c:RestoreEntropy", "wizard/zip.c:RestoreZIP", "wizard/bzip.c:RestoreBZIP", "wizard/lzma.c:RestoreLZMA"]}
{"id": "C135", "title": "Signatures are SHA-256", "statement": "The words GetSignatureInfo, UpdateSignature of the parts of a message and FinalizeSignature compute are those of the SHA-256 digest of the whole message, however it is cut into parts, on machines of either byte order.", "quantifier": "every message of every length, every division into parts, both byte orders", "why_tests_cant": "Messages, and the ways to cut them into parts, are unbounded; sums in words that are wider than 32 bits must be cut at the right places.", "anchors": ["wizard/signature.c:GetSignatureInfo", "wizard/signature.c:UpdateSignature", "wizard/signature.c:FinalizeSignature", "wizard/signature.c:TransformSignature"]}
{"id": "C136", "title": "A passphrase is what was entered twice", "statement": "GetPassphrase returns a passphrase exactly if the user entered it as a whole line twice in a row, and then returns the whole of it; if it cannot be read this is reported and no passphrase is returned.", "quantifier": "every history of bytes, ends of input, errors and signals at the terminal", "why_tests_cant": "The histories of a terminal, with signals and errors at any point, are unbounded.", "anchors": ["wizard/passphrase.c:GetPassphrase", "wizard/passphrase.c:GetPhrase"]}
{"id": "C137", "title": "Reading a passphrase restores the terminal and the signals", "statement": "When GetPassphrase returns, and whenever the process is stopped or dies meanwhile by a signal, the settings of the terminal and what the program does at each signal are as before; signals that arrive meanwhile then have their usual effect.", "quantifier": "every history of bytes, errors and signals, every disposition of every signal, all settings of the terminal", "why_tests_cant": "Signals can arrive at any point, and a failure leaves the user with a terminal that does not echo.", "anchors": ["wizard/passphrase.c:GetPhrase", "wizard/passphrase.c:SignalHandler"]}
{"id": "C138", "title": "A passphrase is never shown", "statement": "No byte of a passphrase is echoed by the terminal while GetPassphrase reads it.", "quantifier": "every history of bytes, errors and signals, every terminal, every set of open descriptors", "why_tests_cant": "It must hold at every byte of every history, also after the program was stopped and continued.", "anchors": ["wizard/passphrase.c:GetPhrase"]}
{"id": "C139", "title": "The messages of a catalog can be looked up", "statement": "After a catalog of messages is loaded, GetLocaleMessage of the tag of any of its messages, in any case, returns the text of that message; other tags return what they returned before, and tags no catalog defines are returned themselves.", "quantifier": "every catalog of any size and nesting, with white space anywhere between its elements, every earlier content, every tag", "why_tests_cant": "Catalogs are unbounded trees of groups, and the tag is assembled and taken apart across the whole file.", "anchors": ["wizard/locale.c:LoadLocaleCache", "wizard/locale.c:ChopLocaleComponents", "wizard/locale.c:GetLocaleMessage"]}
{"id": "C140", "title": "A configuration option is that of the first file that defines it", "statement": "After any history of lookups, GetConfigureInfo of a name, in any case, returns the first entry of that name in the order the entries were loaded, and reports an error if there is none; looking up one option never changes what another lookup returns.", "quantifier": "every list of entries, every history of lookups, every name", "why_tests_cant": "Each lookup reorders the list, so that every history of lookups must be considered.", "anchors": ["wizard/configure.c:GetConfigureInfo", "wizard/configure.c:GetConfigureValue"]}
{"id": "C141", "title": "Lists of options, messages and types are complete and sorted", "statement": "GetConfigureList, GetConfigureInfoList, GetLocaleList and GetMimeList return all entries that are not hidden and match the pattern, each once, and nothing else, in alphabetical order.", "quantifier": "every list of entries, every pattern, every sorting algorithm", "why_tests_cant": "Lists are unbounded, and the comparison must be right on every pair.", "anchors": ["wizard/configure.c:GetConfigureList", "wizard/configure.c:GetConfigureInfoList", "wizard/locale.c:GetLocaleList", "wizard/mime.c:GetMimeList"]}
{"id": "C142", "title": "Configuration files are found in the order of the directories", "statement": "GetConfigureOptions finds the files of a name in the directories WIZARD_CONFIGURE_PATH lists, in that order, then where the library was installed, then in $XDG_CONFIG_HOME/WizardsToolkit and $HOME/.config/WizardsToolkit, and in no other place.", "quantifier": "every environment, every file system, every name", "why_tests_cant": "Environments and file systems are unbounded.", "anchors": ["wizard/configure.c:GetConfigureOptions", "wizard/configure.c:GetConfigurePaths"]}
{"id": "C143", "title": "Included configuration files are loaded in place", "statement": "Loading a configuration file adds all entries of the files it includes and then its own, in order, to those that are there, and records of each in which file it is. A file is included from the directory of the file that includes it, or from where its absolute path says.", "quantifier": "every tree of files that include one another, every file system, every earlier content", "why_tests_cant": "Trees of included files are unbounded.", "anchors": ["wizard/configure.c:LoadConfigureCache", "wizard/configure.c:AcquireConfigureCache", "wizard/mime.c:LoadMimeCache"]}
{"id": "C144", "title": "A command line is split into its arguments", "statement": "StringToArgv returns the arguments of a text, in order: a program name, then each run of characters between white space, and each text between quotes as one argument without the quotes; each argument can be written to and released.", "quantifier": "every text of any length", "why_tests_cant": "Texts are unbounded, and one pass counts arguments that another takes out; they must agree on every text.", "anchors": ["wizard/string.c:StringToArgv"]}
{"id": "C145", "title": "FileToBlob returns the content of a file", "statement": "FileToBlob returns the bytes of a file, or the first extent of them, with their number, and a byte 0 behind them; if the file cannot be read it reports it and returns NULL; it always returns and writes no byte outside the memory it allocates.", "quantifier": "every file of any size and kind, every sequence of results of read, with interruptions and errors", "why_tests_cant": "How much each read delivers is up to the system; every sequence must be considered.", "anchors": ["wizard/blob.c:FileToBlob"]}
{"id": "C146", "title": "A unique temporary file is new, and in the directory asked for", "statement": "AcquireUniqueFileResource creates a file that did not exist in the directory it is given, or the default directory, and leaves all other files alone; it works as often as files are relinquished again.", "quantifier": "every directory, every file system, every sequence of random bytes and failures, every history of files", "why_tests_cant": "Names are random, and every collision and every history matters.", "anchors": ["wizard/resource.c:AcquireUniqueFileResource", "wizard/resource.c:GetPathTemplate"]}
{"id": "C147", "title": "Relinquishing a temporary file removes it if asked to", "statement": "RelinquishUniqueFileResource removes the file it is given, if asked to, and says whether it did; otherwise it leaves the file; it removes no other file.", "quantifier": "every history of temporary files, every name", "why_tests_cant": "It must hold after every history of files acquired and relinquished.", "anchors": ["wizard/resource.c:RelinquishUniqueFileResource"]}
{"id": "C148", "title": "No temporary file survives the program", "statement": "When the library terminates, or a signal ends the program, at any time, all temporary files that were acquired are removed and no other file is.", "quantifier": "every history of files acquired and relinquished, every point at which it ends", "why_tests_cant": "The end may come after every history.", "anchors": ["wizard/resource.c:ResourceComponentTerminus", "wizard/resource.c:AsynchronousResourceComponentTerminus", "wizard/resource.c:AcquireUniqueFileResource"]}
{"id": "C149", "title": "digest -authenticate reports exactly the files that changed", "statement": "digest writes a file with the digests of files; digest -authenticate of that file reports exactly those of them whose digests have changed since, or that have gone, each with its path, dates and digests, and its exit status says whether there are any.", "quantifier": "every set of files with any paths and contents, every change of them, every hash", "why_tests_cant": "Paths, files and changes are unbounded, and what is written must be read back in every case.", "anchors": ["utilities/digest.c:DigestCommand", "utilities/digest.c:AuthenticateDigest", "utilities/digest.c:WizardMain"]}
{"id": "C150", "title": "digest -authenticate reads every digest file to its end", "statement": "digest -authenticate ends on every file, reads all of it and writes no byte outside its memory.", "quantifier": "every file of any length and content", "why_tests_cant": "Files are unbounded and may be written by anybody.", "anchors": ["utilities/digest.c:AuthenticateDigest"]}
{"id": "C151", "title": "A digest covers the whole content of a file", "statement": "The digest that is computed of a file is that of all bytes read, and no byte is written outside memory, also if the file changes while it is read.", "quantifier": "every file of any length, every way it may grow while it is read", "why_tests_cant": "What each read delivers depends on other programs.", "anchors": ["utilities/digest.c:DigestCommand", "utilities/digest.c:AuthenticateDigest", "wizard/string.c:SetStringInfoLength"]}
{"id": "C152", "title": "The settings that encipher records are those decipher uses", "statement": "encipher writes its settings (cipher, mode, nonce, authentication, key, hash, entropy, length of chunks, version) in front of the content; decipher reads exactly these settings from there and goes on with exactly the content behind them; if they have been changed it refuses the file.", "quantifier": "all settings encipher may have, every name of a file, every content, whatever settings there were before", "why_tests_cant": "Settings, names and contents are unbounded, and what is written must be read back in every case.", "anchors": ["utilities/encipher.c:EncipherContent", "utilities/content.c:GetContentInfo"]}
{"id": "C153", "title": "decipher ends on every file", "statement": "Reading the settings of a file ends, and writes no byte outside its memory, whatever the file is.", "quantifier": "every file of any length and content", "why_tests_cant": "Files are unbounded and may be written by anybody.", "anchors": ["utilities/content.c:GetContentInfo"]}
{"id": "C154", "title": "encipher does what its options say", "statement": "`encipher` reads the first file that is named and writes the second, with the cipher, mode, entropy, hashes, level, chunk size, length of the key, keyring, passphrase and properties that its options name; of an option that is given twice the last one counts; what is not given has its documented default; and every option the usage describes is accepted.", "quantifier": "every sequence of options, switches and two names of files, in any order", "why_tests_cant": "Command lines are unbounded sequences; tests try single options.", "anchors": ["utilities/encipher.c:EncipherCommand", "utilities/content.c:AcquireContentInfo", "wizard/option.c:IsWizardOption"]}
{"id": "C155", "title": "A splay tree gives up every key and value exactly once", "statement": "Every key and value that is put into a splay tree is at any time relinquished through its callback, handed back by a removal, or in the tree, exactly as often as it was put; DestroySplayTree and ResetSplayTree end, read no node they have released, release every node once and relinquish exactly what is left.", "quantifier": "every order of the keys, all callbacks, every history of calls, every placement of the nodes in memory", "why_tests_cant": "Histories and shapes of trees are unbounded; leaks and double releases show only in some of them.", "anchors": ["wizard/splay-tree.c:AddValueToSplayTree", "wizard/splay-tree.c:DeleteNodeFromSplayTree", "wizard/splay-tree.c:RemoveNodeFromSplayTree", "wizard/splay-tree.c:DeleteNodeByValueFromSplayTree", "wizard/splay-tree.c:RemoveNodeByValueFromSplayTree", "wizard/splay-tree.c:DestroySplayTree", "wizard/splay-tree.c:ResetSplayTree"]}
{"id": "C156", "title": "A splay tree uses no key it has relinquished", "statement": "No key that a splay tree has relinquished or handed back is a key in the tree, the position of the iterator, or relinquished again.", "quantifier": "every order of the keys, every history of calls", "why_tests_cant": "Whether a dangling key is used depends on the history of calls.", "anchors": ["wizard/splay-tree.c:AddValueToSplayTree", "wizard/splay-tree.c:DeleteNodeFromSplayTree", "wizard/splay-tree.c:ResetSplayTreeIterator", "wizard/splay-tree.c:GetNextKeyInSplayTree"]}
{"id": "C157", "title": "A hash map gives up every key and value exactly once", "statement": "Every key and value of a PutEntryInHashmap that reported success is at any time relinquished through its callback, handed back by a removal, or in the map, exactly as often as it was put; those of a put that reported failure stay with the caller; DestroyHashmap relinquishes exactly what is left.", "quantifier": "every hash, every comparison, all callbacks, every history of calls, every failure of an allocation in it", "why_tests_cant": "Histories are unbounded, and any allocation in them may fail.", "anchors": ["wizard/hashmap.c:PutEntryInHashmap", "wizard/hashmap.c:RemoveEntryFromHashmap", "wizard/hashmap.c:DestroyHashmap", "wizard/hashmap.c:IncreaseHashmapCapacity"]}
{"id": "C158", "title": "A put into a hash map that fails changes nothing", "statement": "If PutEntryInHashmap reports failure, the bindings and the number of entries are as before, and nothing has been relinquished.", "quantifier": "every map that a history of calls has built, every key and value, every failure of an allocation", "why_tests_cant": "Failures of allocations and full tables are not reached in tests.", "anchors": ["wizard/hashmap.c:PutEntryInHashmap", "wizard/hashmap.c:IncreaseHashmapCapacity"]}
{"id": "C159", "title": "Destroying a linked list gives up every value exactly once", "statement": "DestroyLinkedList and ClearLinkedList with a callback end, use no released element, hand each value of the list to the callback exactly once, in its order, and release all elements.", "quantifier": "every history of calls on the list, whatever addresses the allocator returns", "why_tests_cant": "Histories are unbounded; a double release depends on the links they leave.", "anchors": ["wizard/hashmap.c:DestroyLinkedList", "wizard/hashmap.c:ClearLinkedList"]}
{"id": "C160", "title": "CloseBlob tells of bytes that did not reach the file", "statement": "If every write call returned the number of its bytes and CloseBlob returns true, the file holds all bytes in order; and CloseBlob does not return true if a write before it failed.", "quantifier": "every sequence of write, chunk and sync calls, every pattern of partial and failing system calls, every buffer size", "why_tests_cant": "It depends on which system call fails, and on what the C library does with bytes it could not write.", "anchors": ["wizard/blob.c:CloseBlob", "wizard/blob.c:WriteBlob", "wizard/blob.c:WriteBlobChunk", "wizard/blob.c:SyncBlob", "utilities/digest.c:ComputeDigest"]}
{"id": "C161", "title": "A file that cannot be read to its end is not taken for a shorter one", "statement": "Read calls deliver the bytes of the file in order, and if the file cannot be read from some place on, a read call or CloseBlob says so.", "quantifier": "every file, every place from which it cannot be read, every sequence of read calls", "why_tests_cant": "Failing reads are not reached in tests, and every sequence of calls must tell.", "anchors": ["wizard/blob.c:ReadBlob", "wizard/blob.c:ReadBlobChunk", "wizard/blob.c:CloseBlob", "wizard/blob.c:EOFBlob"]}
{"id": "C162", "title": "What is acquired for a blob is released once", "statement": "From OpenBlob to DestroyBlob, memory, semaphores, files, commands, maps and shares of the map resource are each released exactly as often as acquired, and OpenBlob is safe whichever call in it fails.", "quantifier": "every kind of name, every outcome of the calls that open it, every sequence of calls on the blob", "why_tests_cant": "Leaks and double releases depend on failures and on the order of calls.", "anchors": ["wizard/blob.c:OpenBlob", "wizard/blob.c:CloseBlob", "wizard/blob.c:DestroyBlob", "wizard/blob.c:DetachBlob", "wizard/blob.c:SetBlobExtent", "wizard/blob.c:GetBlobSize"]}
{"id": "C163", "title": "What a document type declares is known in the document", "statement": "The internal subset of a document type is read whole: behind it every reference to a declared entity reads as the text of its first declaration, GetXMLTreeAttribute returns the declared default of an attribute an element does not set, normalised as its declared type says, and no default that was not declared, and the processing instructions in it are known.", "quantifier": "every well-formed internal subset: any number and order of entity, attribute, element and notation declarations, comments and instructions, any element and attribute name", "why_tests_cant": "Declarations combine in unboundedly many ways, and each can change how those after it are read.", "anchors": ["wizard/xml-tree.c:ParseInternalDoctype", "wizard/xml-tree.c:GetXMLTreeAttribute", "wizard/xml-tree.c:NewXMLTree"]}
{"id": "C164", "title": "A document that declares entities and attributes reads as the tree it writes", "statement": "NewXMLTree returns for every well-formed document with an internal subset the tree it writes: references to declared entities are replaced, values of attributes declared with a tokenised type are normalised and others are not, attributes left out have their declared defaults, and all processing instructions, before, in and behind the document type, are known in order.", "quantifier": "every well-formed document with an internal subset, of any size and depth", "why_tests_cant": "What a declaration does shows only in its combination with each of the unboundedly many documents that can follow it.", "anchors": ["wizard/xml-tree.c:NewXMLTree", "wizard/xml-tree.c:ParseInternalDoctype", "wizard/xml-tree.c:GetXMLTreeAttribute"]}
{"id": "C165", "title": "DestroyXMLTree gives up a tree once and whole", "statement": "DestroyXMLTree of the top of a tree frees every element of the tree exactly once, with all tables that were acquired for its elements, touches nothing it has freed, and leaves other trees as they were; an element that was pruned and the tree it was pruned from can be given up in either order.", "quantifier": "every history of NewXMLTreeTag, AddChildToXMLTree and InsertTagIntoXMLTree, any pruned element, any set of tops in any order", "why_tests_cant": "The shape of a tree and the order of freeing have no bound; leaks and double frees are not seen by looking at results.", "anchors": ["wizard/xml-tree.c:DestroyXMLTree", "wizard/xml-tree.c:DestroyXMLTreeRoot", "wizard/xml-tree.c:InsertTagIntoXMLTree", "wizard/xml-tree.c:PruneTagFromXMLTree"]}
{"id": "C166", "title": "SetXMLTreeAttribute sets, adds and removes attributes", "statement": "After any calls of SetXMLTreeAttribute on an element, GetXMLTreeAttribute returns for every name the last value set, nothing for names that were removed with NULL or never set, and the values NewXMLTree read for the others; the calls touch only memory that was set.", "quantifier": "every element of a document or made by NewXMLTreeTag or AddChildToXMLTree, any history of calls, any names and values", "why_tests_cant": "What an unset pointer holds depends on the allocator and its history, so tests of adding and removing pass or crash by chance.", "anchors": ["wizard/xml-tree.c:SetXMLTreeAttribute", "wizard/xml-tree.c:GetXMLTreeAttribute", "wizard/xml-tree.c:NewXMLTree"]}
{"id": "C167", "title": "The toolkit can be started and ended by any threads", "statement": "WizardsToolkitGenesis and WizardsToolkitTerminus can be called by any threads, any number of times: nothing is undefined, no thread waits for ever, the calls take effect one after the other, the toolkit with all its components is there when the last call was WizardsToolkitGenesis, and when it was WizardsToolkitTerminus all that was acquired has been given back.", "quantifier": "every number of threads, all sequences of calls they make, every schedule, with pthreads and with OpenMP", "why_tests_cant": "The failures need one particular interleaving of two threads; leaks have no effect a test sees.", "anchors": ["wizard/wizard.c:WizardsToolkitGenesis", "wizard/wizard.c:WizardsToolkitTerminus", "wizard/semaphore-private.h:InitializeWizardMutex", "wizard/semaphore.c:RelinquishSemaphoreInfo", "wizard/semaphore.c:SemaphoreComponentTerminus"]}
{"id": "C168", "title": "Listing a key ring tells every key's id, nonce, time and protocol, and never a key", "statement": "PrintKeyringProperties on a key ring file returns True and writes a heading and one entry per record, in file order, with the id and nonce in hexadecimal, the time stamp and the protocol; two key rings that differ only in their keys give the same text, and two that differ in anything else listed do not. A damaged or missing key ring is reported as an error.", "quantifier": "all key ring files with any number of records of any lengths and of both protocols, all paths, all schedules of short reads, all places where a record is cut off, all values in place of a record's mark", "why_tests_cant": "secrecy of the keys is a statement about pairs of key rings, and completeness is about every number and length of records; tests list a few rings and look for a few strings", "anchors": ["wizard/keyring.c:PrintKeyringProperties", "wizard/string.c:StringInfoToHexString", "wizard/xml-tree.c:CanonicalXMLContent"]}
{"id": "C169", "title": "The keyring program lists the key rings it is given and exports keys from them", "statement": "`keyring ring ... out` writes one RDF document with the lists of the rings in argument order to out and changes no other file; `keyring out` lists the default ring; options change what they say and nothing else; `keyring -export id [ring ...] out` adds the key with that id to out and returns.", "quantifier": "all argument vectors, all files, all key rings, all ids, all recognised option values", "why_tests_cant": "the argument grammar is unbounded and the memory error of the export shows only under an allocator that notices; tests use a few command lines", "anchors": ["utilities/keyring.c:KeyringCommand", "utilities/keyring.c:ExportKeyring", "wizard/keyring.c:PrintKeyringProperties"]}
{"id": "C170", "title": "String variables have the texts they were given, and none is lost or given up twice", "statement": "After any history of CloneString, ConcatenateString and DestroyString on any number of string variables, each variable is NULL or owns a string equal to what the calls should have made of it, whatever the allocator does; nothing is read or written outside a string, no string is shared, and when all variables are NULL no memory is held. The source may be any string, a variable's own included, or NULL.", "quantifier": "all histories of calls of any length on any number of variables, all texts of all lengths, all sources (constants, places within strings of other variables, within the string itself, NULL), all choices of the allocator whether to move a block, all contents of fresh memory", "why_tests_cant": "whether a block moves is up to the allocator: a call that reads a string it has just given up passes its tests on one allocator and fails on another", "anchors": ["wizard/string.c:CloneString", "wizard/string.c:ConcatenateString", "wizard/string.c:AcquireString", "wizard/string.c:DestroyString", "wizard/memory-private.h:OverAllocateMemory", "wizard/memory.c:ResizeQuantumMemory"]}
{"id": "C171", "title": "A reported exception is recorded with its place and logged with its severity", "statement": "Every call of ThrowWizardException records the severity and a message that tells the reason, the module, the function and the line, unless it repeats the one before, and gives the reason and place once to the log, in order, as an exception event if the severity is an error and as a warning event otherwise.", "quantifier": "all histories of reports of any length on one exception, all severities, reasons, modules, functions and lines", "why_tests_cant": "the kind of event depends on the history of the exception and not on the call; tests look at one report", "anchors": ["wizard/exception.c:ThrowWizardException", "wizard/exception.c:ThrowWizardExceptionList", "wizard/exception.c:ThrowException"]}
{"id": "C172", "title": "What encipher writes decipher restores, from command line to file", "statement": "Whatever options and names encipher is given, it changes no file but the ciphertext, the file of properties if one is named and the key ring, which gets one more record; and decipher, run later with the same key ring, properties file and passphrase, whatever its other options, writes exactly what encipher read and changes no other file.", "quantifier": "all command lines of both programs, all contents of files and key rings, all passphrases, all ciphers that can be inverted and modes, chunk sizes, HMACs and compressions, all random bytes, all interleavings of short and interrupted system calls", "why_tests_cant": "settings, key ring, properties and content must fit together for every combination of options and every size of file; tests run a few", "anchors": ["utilities/encipher.c:EncipherCommand", "utilities/encipher.c:EncipherContent", "utilities/decipher.c:DecipherCommand", "utilities/decipher.c:DecipherContent", "utilities/content.c:GetContentInfo", "wizard/secret.c:GenerateSecretKey", "wizard/secret.c:AuthenticateSecretKey"]}
{"id": "C173", "title": "decipher writes nothing but its output, nothing that was not authenticated, and a program that fails harms no file", "statement": "Whatever is on the command line and in the files, encipher changes no file but the ciphertext, the key ring and the file of properties, and decipher none but its output; decipher writes only what it deciphered with a key that the passphrase and the id in the settings authenticate, and, where there are HMACs, only chunks that have them; who does not have the key cannot make it accept other content; and a program that reports failure leaves the file it was to write as it was.", "quantifier": "all command lines, all contents of files, key rings and settings, also hostile ones, all passphrases and system calls", "why_tests_cant": "an attacker chooses the file after the tests were written, and settings decide which checks are made", "anchors": ["utilities/decipher.c:DecipherCommand", "utilities/decipher.c:DecipherContent", "utilities/encipher.c:EncipherContent", "utilities/content.c:GetContentInfo", "wizard/secret.c:AuthenticateSecretKey"]}
{"id": "C174", "title": "Starting the toolkit leaves a program's signals alone, and a signal that ends it removes its temporary files", "statement": "Whatever a program makes its signals do and however often it starts the toolkit: signals that it handles or ignores stay as it has set them, with all that belongs to the handler, blocked ones stay blocked, and none is lost; a signal that has the default action ends the program when it arrives, with its number as status, after the temporary files were removed.", "quantifier": "all histories of handlers set and starts of the toolkit, all handlers, flags and masks, all times at which signals arrive or wait", "why_tests_cant": "signals arrive at any time, also between two calls and while semaphores are held; tests send one to a quiet program", "anchors": ["wizard/wizard.c:WizardsToolkitGenesis", "wizard/wizard.c:SetWizardSignalHandler", "wizard/wizard.c:RegisterWizardSignalHandler", "wizard/wizard.c:WizardSignalHandler", "wizard/resource.c:AsynchronousResourceComponentTerminus"]}
{"id": "C175", "title": "A pattern on a command line stands for the files that match it, and nothing else is changed", "statement": "Whatever the arguments and the files: an argument with `*`, `?` or brackets becomes the regular files of its directory that match it, in dictionary order, and stays if there are none; parameters of options, quoted arguments, names of files that exist and all other arguments stay as they are, in their places.", "quantifier": "all command lines, all contents of directories, all orders in which the system lists them", "why_tests_cant": "what is on disk when the program runs decides what an argument becomes, and a key may look like a pattern", "anchors": ["utilities/utility.c:ExpandFilenames", "utilities/utility.c:ListFiles", "utilities/utility.c:ExpandFilename", "utilities/utility.c:FileCompare", "wizard/token.c:IsGlob", "wizard/token.c:GlobExpression", "wizard/utility.c:GetPathComponent", "wizard/option.c:ParseWizardOption"]}
{"id": "C176", "title": "cipher-info shows of each file the settings that are recorded in it, and its status tells whether it could", "statement": "Whatever files are named on its command line, cipher-info shows of each file the settings recorded in that file, in the order of the arguments and whatever the other files are; it exits with 0 if it could show them all and with another status otherwise.", "quantifier": "all command lines, all numbers and orders of files, all recorded settings, also incomplete, changed and missing files", "why_tests_cant": "what is shown of a file may depend on every file before it, and the status on their order", "anchors": ["utilities/cipher-info.c:CipherInfoCommand", "utilities/cipher-info.c:WizardMain", "utilities/content.c:PrintCipherProperties", "utilities/content.c:GetContentInfo", "utilities/content.c:AcquireContentInfo"]}
{"id": "C177", "title": "A secret gives up all its memory once, never uses what it gave up, and leaves no secrets behind", "statement": "Whatever a program does with a secret, what it finds in it and in its key ring is what was set last; destroying it gives up all the memory that was acquired for it, each block once, and nothing else; no call reads memory that was given up; and keys, seeds and the name of the passphrase's file do not remain in memory.", "quantifier": "all histories of ids set, passphrases named, keys generated, found and enciphered, of any length, all contents, all memory of the rest of the program", "why_tests_cant": "leaks and uses after release depend on the history of calls and are not seen in results; what remains in released memory is seen by no call of the API", "anchors": ["wizard/secret.c:AcquireSecretInfo", "wizard/secret.c:DestroySecretInfo", "wizard/secret.c:SetSecretId", "wizard/secret.c:SetSecretPassphrase", "wizard/secret.c:GenerateSecretKey", "wizard/keyring.c:DestroyKeyringInfo", "wizard/keyring.c:SetKeyringId", "wizard/keyring.c:SetKeyringKey", "wizard/string.c:DestroyStringInfo", "wizard/random.c:DestroyRandomInfo", "wizard/cipher.c:DestroyCipherInfo", "wizard/aes.c:DestroyAESInfo", "wizard/hmac.c:DestroyHMACInfo", "wizard/hash.c:DestroyHashInfo"]}
{"id": "C178", "title": "A number with a unit means the number times what the prefix stands for", "statement": "Whatever the number, a text of digits with or without a sign and a fraction, then an SI or IEC prefix or none, then B or not, is read as the number times what the prefix stands for, and as a whole: so a chunk size of 64KiB is 65536 bytes; what is no prefix is not read.", "quantifier": "all digits of any number, all fractions and signs, all prefixes, all texts that follow", "why_tests_cant": "numbers, fractions, prefixes and what follows combine without bound, and letters of prefixes are also letters of exponents", "anchors": ["wizard/string.c:InterpretSiPrefixValue", "wizard/locale.c:InterpretLocaleValue", "wizard/string-private.h:StringToDoubleInterval", "utilities/encipher.c:EncipherCommand"]}
{"id": "C179", "title": "What is printed of a string tells the string", "statement": "Printing a string under a name writes the name, its length and its bytes, as they are if all of them are text and else as two hexadecimal digits each; so two strings of which the same is printed are the same; and nothing is written that is not of the name or the string.", "quantifier": "all names, all strings of any length and content", "why_tests_cant": "names and strings are unbounded, text and digits can look alike, and what is behind an array is not seen by a test that passes", "anchors": ["wizard/string.c:PrintStringInfo", "wizard/string.c:PrintWizardString"]}
{"id": "C180", "title": "A fatal error is told once and ends the program with a status that tells it", "statement": "Whatever handlers a program has set, a fatal error ends it; the error is told once, to the handler that was set last or by a line with the client's name; the status is not zero, and tells the domain and the error; setting a handler returns the one set before, and the client's name is the last one given.", "quantifier": "all domains, errors, severities and messages, all histories of handlers and client names, all behaviours of the program's handlers", "why_tests_cant": "fatal errors end the process that would test them, come from failures that tests do not provoke, and depend on the history of handlers", "anchors": ["wizard/exception-private.h:ThrowWizardFatalError", "wizard/exception-private.h:ThrowFatalException", "wizard/exception-private.h:WizardAssert", "wizard/exception.c:CatchException", "wizard/exception.c:SetFatalErrorHandler", "wizard/exception.c:SetErrorHandler", "wizard/exception.c:SetWarningHandler", "wizard/exception.c:DefaultFatalErrorHandler", "wizard/exception.c:WizardFatalError", "wizard/client.c:SetClientName", "wizard/sha2256.c:AcquireSHA2256Info", "wizard/zip.c:AcquireZIPInfo", "wizard/serpent.c:AcquireSerpentInfo"]}
