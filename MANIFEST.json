{
 "claims": [
  {
   "property": "C01",
   "status": "proved",
   "theorems": [
    "Wizard.Props.C01_hex_round_trip",
    "Wizard.Props.C01_hex_upper_case",
    "Wizard.Props.C01_hex_text_shape",
    "Wizard.Props.C01_hex_text_round_trip"
   ],
   "note": ""
  },
  {
   "property": "C02",
   "status": "proved",
   "theorems": [
    "Wizard.Props.C02_compare_is_dictionary_order",
    "Wizard.Props.C02_compare_antisymmetric",
    "Wizard.Props.C02_compare_transitive"
   ],
   "note": ""
  },
  {
   "property": "C03",
   "status": "proved",
   "theorems": [
    "Wizard.Props.C03_set",
    "Wizard.Props.C03_split",
    "Wizard.Props.C03_split_refused",
    "Wizard.Props.C03_clone"
   ],
   "note": ""
  },
  {
   "property": "C04",
   "status": "partial",
   "theorems": [
    "Wizard.Props.C04_concatenate_violated",
    "Wizard.Props.C04_concatenate_witness",
    "Wizard.Props.C04_concatenate_overrun_violated",
    "Wizard.Props.C04_concatenate_prefix_partial"
   ],
   "note": "The claim is false of the code: the destination is not terminated/sized as documented and the copy can overrun; proved as violated with witnesses. The partial theorem states what does hold of the prefix."
  },
  {
   "property": "C05",
   "status": "partial",
   "theorems": [
    "Wizard.Props.C05_copy",
    "Wizard.Props.C05_copy_zero",
    "Wizard.Props.C05_copy_text",
    "Wizard.Props.C05_copy_return_violated",
    "Wizard.Props.C05_concatenate",
    "Wizard.Props.C05_concatenate_full"
   ],
   "note": "All bounds and text claims proved; the returned length of CopyWizardString on truncation is not the source length (violated)."
  },
  {
   "property": "C06",
   "status": "partial",
   "theorems": [
    "Wizard.Props.C06_compare_spec",
    "Wizard.Props.C06_equal_up_to_case",
    "Wizard.Props.C06_equal_up_to_case_strcasecmp",
    "Wizard.Props.C06_equal_up_to_case_non_ascii_violated",
    "Wizard.Props.C06_antisymmetric",
    "Wizard.Props.C06_transitive",
    "Wizard.Props.C06_ncompare"
   ],
   "note": "Order laws for every folding that maps only NUL to NUL. Non-ASCII bytes under the fallback table do not fold to ASCII case (violated theorem)."
  },
  {
   "property": "C07",
   "status": "proved",
   "theorems": [
    "Wizard.Props.C07_encode",
    "Wizard.Props.C07_round_trip"
   ],
   "note": ""
  },
  {
   "property": "C08",
   "status": "proved",
   "theorems": [
    "Wizard.Props.C08_decode",
    "Wizard.Props.C08_decode_unique"
   ],
   "note": ""
  },
  {
   "property": "C09",
   "status": "partial",
   "theorems": [
    "Wizard.Props.C09_substitute",
    "Wizard.Props.C09_substitute_absent",
    "Wizard.Props.C09_substitute_empty_violated"
   ],
   "note": "Full for non-empty search texts; an empty search text never terminates (violated)."
  },
  {
   "property": "C10",
   "status": "partial",
   "theorems": [
    "Wizard.Props.C10_glob",
    "Wizard.Props.C10_glob_empty_pattern_violated",
    "Wizard.Props.C10_glob_brace_violated",
    "Wizard.Props.C10_glob_overread_violated",
    "Wizard.Props.C10_glob_terminates"
   ],
   "note": "Full language equality on the wildcard fragment (literals, ?, *, [..] with ranges, escapes) and termination for all patterns; brace alternatives followed by text, the empty pattern and unterminated brackets violate the claim (violated theorems)."
  },
  {
   "property": "C11",
   "status": "partial",
   "theorems": [
    "Wizard.Props.C11_token_partial",
    "Wizard.Props.C11_token_no_paren_partial",
    "Wizard.Props.C11_token_violated"
   ],
   "note": "Safe for every text whose parentheses are closed, except the tokens url( and url(#; both exceptions are proved to be out-of-bounds accesses (violated theorem)."
  },
  {
   "property": "C12",
   "status": "partial",
   "theorems": [
    "Wizard.Props.C12_strip",
    "Wizard.Props.C12_strip_unquoted",
    "Wizard.Props.C12_strip_quoted_partial",
    "Wizard.Props.C12_strip_blank",
    "Wizard.Props.C12_strip_idempotent",
    "Wizard.Props.C12_strip_empty_quotes_violated",
    "Wizard.Props.C12_strip_quoted_idempotent_violated"
   ],
   "note": "Exact effect on every string; the empty quoted string and quoted idempotence fail (violated)."
  },
  {
   "property": "C13",
   "status": "proved",
   "theorems": [
    "Wizard.Props.C13_sequence",
    "Wizard.Props.C13_no_leak",
    "Wizard.Props.C13_capacity"
   ],
   "note": ""
  },
  {
   "property": "C14",
   "status": "partial",
   "theorems": [
    "Wizard.Props.C14_insert_ends_partial",
    "Wizard.Props.C14_insert_middle_violated"
   ],
   "note": "Insertion at the front and the end is proved for every list; insertion at an index strictly between puts the value one place too late and is proved violated for every list."
  },
  {
   "property": "C15",
   "status": "partial",
   "theorems": [
    "Wizard.Props.C15_sorted_replace",
    "Wizard.Props.C15_sorted_insert",
    "Wizard.Props.C15_replace_iterator_violated",
    "Wizard.Props.C15_replace_head_leak_violated"
   ],
   "note": "Sorted insertion and replacement positions proved for every sorted list and comparator; the replacement case leaves an iterator on the replaced element dangling and leaks the old head (violated theorems)."
  },
  {
   "property": "C16",
   "status": "proved",
   "theorems": [
    "Wizard.Props.C16_map",
    "Wizard.Props.C16_put_succeeds"
   ],
   "note": ""
  },
  {
   "property": "C17",
   "status": "partial",
   "theorems": [
    "Wizard.Props.C17_count_partial",
    "Wizard.Props.C17_overwrite_violated",
    "Wizard.Props.C17_overwrite_example_violated"
   ],
   "note": "Counter = number of bindings for every history without rebinding; every successful rebinding makes the counter one too large (violated theorem, general and concrete)."
  },
  {
   "property": "C18",
   "status": "proved",
   "theorems": [
    "Wizard.Props.C18_iteration"
   ],
   "note": ""
  },
  {
   "property": "C19",
   "status": "proved",
   "theorems": [
    "Wizard.Props.C19_map",
    "Wizard.Props.C19_delete_result"
   ],
   "note": ""
  },
  {
   "property": "C20",
   "status": "proved",
   "theorems": [
    "Wizard.Props.C20_count"
   ],
   "note": ""
  },
  {
   "property": "C21",
   "status": "proved",
   "theorems": [
    "Wizard.Props.C21_traversal",
    "Wizard.Props.C21_iteration"
   ],
   "note": ""
  },
  {
   "property": "C22",
   "status": "proved",
   "theorems": [
    "Wizard.Props.C22_balance",
    "Wizard.Props.C22_access_succeeds"
   ],
   "note": ""
  },
  {
   "property": "C23",
   "status": "proved",
   "theorems": [
    "Wizard.Props.C23_aes_inverse",
    "Wizard.Props.C23_aes_injective"
   ],
   "note": ""
  },
  {
   "property": "C24",
   "status": "proved",
   "theorems": [
    "Wizard.Props.C24_serpent_inverse",
    "Wizard.Props.C24_serpent_key"
   ],
   "note": ""
  },
  {
   "property": "C25",
   "status": "proved",
   "theorems": [
    "Wizard.Props.C25_twofish_inverse",
    "Wizard.Props.C25_twofish_injective"
   ],
   "note": ""
  },
  {
   "property": "C26",
   "status": "proved",
   "theorems": [
    "Wizard.Props.C26_chacha_involution"
   ],
   "note": ""
  },
  {
   "property": "C27",
   "status": "proved",
   "theorems": [
    "Wizard.Props.C27_round_trip",
    "Wizard.Props.C27_stream_round_trip",
    "Wizard.Props.C27_aes",
    "Wizard.Props.C27_chacha",
    "Wizard.Props.C27_serpent",
    "Wizard.Props.C27_twofish"
   ],
   "note": ""
  },
  {
   "property": "C28",
   "status": "proved",
   "theorems": [
    "Wizard.Props.C28_encipher_bounds",
    "Wizard.Props.C28_decipher_bounds",
    "Wizard.Props.C28_slack_is_needed"
   ],
   "note": ""
  },
  {
   "property": "C29",
   "status": "proved",
   "theorems": [
    "Wizard.Props.C29_counters"
   ],
   "note": ""
  },
  {
   "property": "C30",
   "status": "partial",
   "theorems": [
    "Wizard.Props.C30_serpent_ecb_violated",
    "Wizard.Props.C30_serpent_ctr_violated",
    "Wizard.Props.C30_serpent_ofb_violated",
    "Wizard.Props.C30_chacha_partial"
   ],
   "note": "False for Serpent (violated theorems for ECB, CTR and OFB, every key and message). The partial theorem shows it for ChaCha; for AES, whether every byte of every block changes under some key is not proved."
  },
  {
   "property": "C31",
   "status": "partial",
   "theorems": [
    "Wizard.Props.C31_chacha_ecb_violated",
    "Wizard.Props.C31_chacha_ctr_violated",
    "Wizard.Props.C31_chacha_ofb_violated"
   ],
   "note": "False of the code in every mode but CFB/CBC: proved for every key, nonce and message that ECB and CTR repeat one keystream and that OFB leaves every second block xored with the public nonce only."
  },
  {
   "property": "C32",
   "status": "partial",
   "theorems": [
    "Wizard.Props.C32_split_partial",
    "Wizard.Props.C32_split_large"
   ],
   "note": "Missing: single strings of 2^32 bytes and more for SHA-1, SHA-224, SHA-256 and large ones for SHA-3, of which it is false (C75, C76); C32_split_large has no limit for the other types."
  },
  {
   "property": "C33",
   "status": "partial",
   "theorems": [
    "Wizard.Props.C33_conforms_partial"
   ],
   "note": "Missing: SHA-224 and SHA-3, of which it is false (C73, C74), and the size limit of C32 (C75, C76)."
  },
  {
   "property": "C34",
   "status": "partial",
   "theorems": [
    "Wizard.Props.C34_hmac_construction",
    "Wizard.Props.C34_hmac_partial",
    "Wizard.Props.C34_construct",
    "Wizard.Props.C34_hmac_sha3_violated"
   ],
   "note": "False as stated \u2014 C34_hmac_sha3_violated: HMAC with SHA-3 is not the published one even if the underlying Keccak is taken for the hash function: the key is padded to 64 bytes, the rate (136 bytes for SHA3-256) being the block size; empty key and empty message. Proved in part \u2014 C34_hmac_partial: For MD5, SHA-1, SHA-256, SHA-384 and SHA-512 (and CRC-64 with a block of 32 bytes), for every key of every length, every message and split, and whatever the object was used for before, FinalizeHMAC leaves the HMAC of RFC 2104. Partial: single strings, the key among them, below `updateLimit t`; SHA-224 and SHA-3 are excluded, see `C34_hmac_sha3_violated` and C73."
  },
  {
   "property": "C35",
   "status": "proved",
   "theorems": [
    "Wizard.Props.C35_crc_burst"
   ],
   "note": ""
  },
  {
   "property": "C36",
   "status": "proved",
   "theorems": [
    "Wizard.Props.C36_split",
    "Wizard.Props.C36_stream"
   ],
   "note": ""
  },
  {
   "property": "C37",
   "status": "proved",
   "theorems": [
    "Wizard.Props.C37_increment",
    "Wizard.Props.C37_nonces"
   ],
   "note": ""
  },
  {
   "property": "C38",
   "status": "proved",
   "theorems": [
    "Wizard.Props.C38_injective",
    "Wizard.Props.C38_surjective",
    "Wizard.Props.C38_nonzero",
    "Wizard.Props.C38_value"
   ],
   "note": ""
  },
  {
   "property": "C39",
   "status": "partial",
   "theorems": [
    "Wizard.Props.C39_seed_violated",
    "Wizard.Props.C39_first_entropy_violated"
   ],
   "note": "False: nonce and reservoir are all zeros for every entropy, and the first entropy has no effect on any output (violated). The second entropy is the HMAC key of the stream (C36_stream)."
  },
  {
   "property": "C40",
   "status": "partial",
   "theorems": [
    "Wizard.Props.C40_read",
    "Wizard.Props.C40_read_end_partial",
    "Wizard.Props.C40_read_end_violated",
    "Wizard.Props.C40_write",
    "Wizard.Props.C40_append"
   ],
   "note": "False as stated \u2014 C40_read_end_violated: **C40 is false** at the end of a file. `ReadFileChunk` (file.c:623-628) tells the end of the file from an interruption by `errno`, but a `read` that returns 0 does not set it. If any earlier call in the thread left `EINTR` there, or the first call of this chunk was interrupted, a request for more bytes than are left never returns, for every file, every request and every schedule of short and interrupted transfers. Proved in part \u2014 C40_read_end_partial: the end of the file: if fewer bytes are left than asked for, `errno` is not `EINTR` and nothing interrupts the calls, `ReadFileChunk` stores all that is left and reports the failure. Missing: that it does so when interrupted (it does not, see below)."
  },
  {
   "property": "C41",
   "status": "partial",
   "theorems": [
    "Wizard.Props.C41_16",
    "Wizard.Props.C41_32",
    "Wizard.Props.C41_64",
    "Wizard.Props.C41_truncated",
    "Wizard.Props.C41_truncated_violated"
   ],
   "note": "False as stated \u2014 C41_truncated_violated: **C41 is false** when `errno` is a stale `EINTR`: reading a truncated integer never returns."
  },
  {
   "property": "C42",
   "status": "partial",
   "theorems": [
    "Wizard.Props.C42_exclusive_partial",
    "Wizard.Props.C42_failed_violated",
    "Wizard.Props.C42_nested_violated",
    "Wizard.Props.C42_takeover_violated"
   ],
   "note": "False as stated \u2014 C42_failed_violated: **C42 is false**: an acquire that fails removes the lock of the process that has it. `AcquireFileInfo` (file.c:326-329) calls `DestroyFileInfo` when the lock could not be acquired, which removes the lock file whoever owns it (file.c:443, 813). One process has the file open, a second one gives up after ten attempts, and a third one acquires the file. | C42_nested_violated: **C42 is false**: a thread that has the file open acquires it again (file.c:177-182), and when it releases one of the two the lock is gone; then another process acquires the file. No acquire fails here. | C42_takeover_violated: **C42 is false**: two processes see the lock of a dead one; the first removes it and then acquires the file; the second, still about to remove the lock it saw, removes that of the first (file.c:196-206), and a third process acquires the file. Proved in part \u2014 C42_exclusive_partial: in part: in every interleaving of any number of threads and processes, which may die at any point, at most one has the file open, and it owns the lock file, provided that no acquire of the lock fails, no thread acquires the file twice and no lock of a dead process is taken over. Missing: those three, each of which breaks it (below)."
  },
  {
   "property": "C43",
   "status": "proved",
   "theorems": [
    "Wizard.Props.C43_export",
    "Wizard.Props.C43_import",
    "Wizard.Props.C43_history"
   ],
   "note": ""
  },
  {
   "property": "C44",
   "status": "proved",
   "theorems": [
    "Wizard.Props.C44_duplicate",
    "Wizard.Props.C44_unique"
   ],
   "note": ""
  },
  {
   "property": "C45",
   "status": "partial",
   "theorems": [
    "Wizard.Props.C45_crash_states",
    "Wizard.Props.C45_crash_points",
    "Wizard.Props.C45_earlier_partial",
    "Wizard.Props.C45_interrupted_partial",
    "Wizard.Props.C45_nonce_violated",
    "Wizard.Props.C45_import_violated",
    "Wizard.Props.C45_lost_violated",
    "Wizard.Props.C45_header_violated",
    "Wizard.Props.C45_header_points"
   ],
   "note": "False as stated \u2014 C45_nonce_violated: **C45 is false**: a wrong nonce is returned as a success. `ExportKeyringKey` (keyring.c:306-317) compares the id before it looks at the status of the reads. If the process died inside the nonce of the record, exporting the interrupted key returns True with the part of the nonce that was written and zeros. | C45_import_violated: **C45 is false**: after a crash that left four or more bytes of a record but not all of it, exporting any id that the ring does not hold, and so importing any new key, aborts the program: the error path passes the destroyed file to `GetFilePath`, the assertion of which fails (keyring.c:276-282, file.c:508). The key ring never accepts another key. | C45_lost_violated: **C45 is false**: after a crash that left one or two bytes of a record, importing a new key returns True, but the record is appended after the stray bytes and exporting the key aborts the program. | C45_header_violated: **C45 is false**: if the process died before the header of a new key ring was complete, in particular right after the file was created, every export from it and every import into it aborts the program. Proved in part \u2014 C45_earlier_partial: in part: after a crash at any point of the record, every key imported before is exported with its original value. Missing: the interrupted key is not always absent or complete, and later imports are not always retrievable (see below). | C45_interrupted_partial: in part: if fewer than four bytes of the record reached the file, the interrupted key is absent; if all did, it is complete."
  },
  {
   "property": "C46",
   "status": "partial",
   "theorems": [
    "Wizard.Props.C46_store_partial"
   ],
   "note": "Missing: the random session id, under which the object keeps its own key."
  },
  {
   "property": "C47",
   "status": "partial",
   "theorems": [
    "Wizard.Props.C47_books_partial",
    "Wizard.Props.C47_sum",
    "Wizard.Props.C47_area_violated"
   ],
   "note": "False as stated \u2014 C47_area_violated: **C47 is false** for the area resource: a refused request replaces the amount in use by the amount refused, and a release replaces it by the amount released (resource.c:410, 758). Proved in part \u2014 C47_books_partial: **C47, C48**, for amounts and finite limits below 2^63: for every history of acquisitions, releases of what is in use and changes of limits, every request is granted exactly if with it the amount in use stays below the limit, nothing aborts, and the amount reported at the end is the amount in use. Missing: larger amounts and limits, where it fails (`C48_request_violated`, `C48_limit_violated`), and the area resource (`C47_area_violated`)."
  },
  {
   "property": "C48",
   "status": "partial",
   "theorems": [
    "Wizard.Props.C48_below_limit_partial",
    "Wizard.Props.C48_request_violated",
    "Wizard.Props.C48_limit_violated"
   ],
   "note": "False as stated \u2014 C48_request_violated: **C48 is false** for large requests: whatever the limit, a request with which the amount in use reaches 2^63 (and stays below 2^64) is granted, because the sum is compared as a signed number (resource.c:428). | C48_limit_violated: **C48 is false** for large limits: under a limit of 2^63 or more that is not \"unlimited\" no request below 2^63 is ever granted, because the limit is compared as a signed number (resource.c:428). Proved in part \u2014 C48_below_limit_partial: for amounts below 2^63: after any history without changes of limits, the amount the library reports for a resource with a finite limit is below its limit. Missing as in `C47_books_partial`."
  },
  {
   "property": "C49",
   "status": "partial",
   "theorems": [
    "Wizard.Props.C49_balanced_partial",
    "Wizard.Props.C49_refused_violated",
    "Wizard.Props.C49_refused_books_violated",
    "Wizard.Props.C49_file_violated"
   ],
   "note": "False as stated \u2014 C49_refused_violated: **C49 is false**: when the memory limit refuses the request and less than the requested amount is in use, the process aborts: the refused amount is given back although it was not taken (memory.c:500). For every state of the system and of the other counters. | C49_refused_books_violated: **C49 is false**: when the limit refuses the request while more is in use, the refused amount is given back all the same; after the acquisition succeeds with a mapping and is released, the amount of memory in use is too small by the whole request. | C49_file_violated: **C49 is false** for files: an acquisition that ends up in a temporary file counts one file, and its release does not take it back (resource.c:843-867): after as many of them as the limit allows, no temporary file can be had. Proved in part \u2014 C49_balanced_partial: when no limit is reached: for every combination of failing allocations, mappings and file operations, an acquisition does not abort, one that fails leaves the counters of memory, map and disk as they were, and releasing what it returned restores them. Missing: refusals by a limit (`C49_refused_violated`, `C49_refused_books_violated`) and the counter of files (`C49_file_violated`)."
  },
  {
   "property": "C50",
   "status": "proved",
   "theorems": [
    "Wizard.Props.C50_extent",
    "Wizard.Props.C50_room",
    "Wizard.Props.C50_refusal",
    "Wizard.Props.C50_aligned_inside"
   ],
   "note": ""
  },
  {
   "property": "C51",
   "status": "partial",
   "theorems": [
    "Wizard.Props.C51_list_partial",
    "Wizard.Props.C51_single",
    "Wizard.Props.C51_negate_violated",
    "Wizard.Props.C51_inverse",
    "Wizard.Props.C51_unknown",
    "Wizard.Props.C51_command_violated",
    "Wizard.Props.C51_empty_violated",
    "Wizard.Props.C51_values",
    "Wizard.Props.C51_other_names",
    "Wizard.Props.C51_events"
   ],
   "note": "False as stated \u2014 C51_negate_violated: **C51 is false** for the exclamation mark: `!word` adds the value of the word instead of removing it (option.c:473 looks at the token, from which the mark has been skipped in 459). For every table and word, after every list of items that includes it. | C51_command_violated: **C51 is false** for the table of commands: of its mnemonics none is found, because they begin with a sign and the sign is skipped (option.c:455) before the token is looked up. `ExpandFilenames` (utilities/utility.c:215) asks for them to learn how many parameters a command option has, and so expands the parameters as file names. | C51_empty_violated: **C51 is false** for the empty text (and one of spaces and commas): the search for dashes starts behind the NUL of the empty token (option.c:481), in memory that was never written; with nothing but other bytes there it reads past the end of the buffer. Proved in part \u2014 C51_list_partial: for every table, and every list of items whose words are entries of the table in any letter case, written with spaces and commas between them, a sign before them or further text after a space, and with dashes and underscores added after the first letter (to words of fewer than 2049 bytes: missing are longer ones, which the fixed buffer cuts off): the result is the values of all of them OR-ed together. Whether words have an exclamation mark or not makes no difference (see `C51_negate_violated`)."
  },
  {
   "property": "C52",
   "status": "partial",
   "theorems": [
    "Wizard.Props.C52_log",
    "Wizard.Props.C52_deliver_partial",
    "Wizard.Props.C52_fatal_lost_violated",
    "Wizard.Props.C52_fatal_wrong_violated",
    "Wizard.Props.C52_repetition_violated"
   ],
   "note": "False as stated \u2014 C52_fatal_lost_violated: **C52 is false**: a fatal exception followed by a milder one is not delivered to the fatal handler, because `CatchException` (exception.c:245) looks at the severity of the exception, which is that of the last one, instead of the element's; then the log is cleared. For every log that ends in something milder. | C52_fatal_wrong_violated: **C52 is false**: when the last exception is fatal, the first one is delivered to the fatal handler whatever it is; the default handler then ends the process with that one's reason and severity (exception.c:323-335), and the fatal exception is never reported. | C52_repetition_violated: **C52 is false**: an exception whose reason differs from the last one's in letter case only is not recorded, though it is not a repetition. For every letter. Proved in part \u2014 C52_deliver_partial: with its missing part (fatal exceptions, see the violations): in every history without fatal exceptions, every recorded exception that is caught is delivered to the handler of its class, once and in order, and nothing else is delivered. The fatal handler may be any."
  },
  {
   "property": "C53",
   "status": "partial",
   "theorems": [
    "Wizard.Props.C53_roundtrip_partial",
    "Wizard.Props.C53_safe",
    "Wizard.Props.C53_utf8_violated",
    "Wizard.Props.C53_binary_violated"
   ],
   "note": "False as stated \u2014 C53_utf8_violated: A text with a byte above 127 \u2014 any text in UTF-8 that is not ASCII \u2014 does not come back. | C53_binary_violated: A text with a control character is written as an element: the escaped text has `<` and `>`. Proved in part \u2014 C53_roundtrip_partial: A text without control characters is written as content that entity decoding turns into the text again, provided it is ASCII; a text with bytes above 127 comes back in UTF-8, read as Latin-1. Missing: such texts themselves (`C53_utf8_violated`) and texts with control characters (`C53_binary_violated`)."
  },
  {
   "property": "C54",
   "status": "proved",
   "theorems": [
    "Wizard.Props.C54_children"
   ],
   "note": ""
  },
  {
   "property": "C55",
   "status": "partial",
   "theorems": [
    "Wizard.Props.C55_general_partial",
    "Wizard.Props.C55_acyclic_partial",
    "Wizard.Props.C55_refused",
    "Wizard.Props.C55_harmless_violated",
    "Wizard.Props.C55_parameter_violated"
   ],
   "note": "False as stated \u2014 C55_harmless_violated: Documents without any cycle are refused as circular: an entity may not even refer to a predefined entity, as `<!ENTITY firm \"AT&amp;T\">` does, nor to one declared before it, as `<!ENTITY a \"x\"><!ENTITY b \"&a;\">` does. | C55_parameter_violated: A parameter entity may refer to itself: whatever its name, `<!ENTITY % n \"%n;\"><!ENTITY x \"%n;\">` is not rejected, and the reference in the second declaration is replaced for ever. Proved in part \u2014 C55_general_partial: However a document declares its entities \u2014 `es` is any list of declarations, general and parameter ones, in any order, that is accepted \u2014 the expansion of general entities in content and in attributes ends, without an access outside the text, for every text. Missing: parameter entities, whose cycles are accepted and never end (`C55_parameter_violated`); the text must not end in a carriage return (`C85_end_violated`). | C55_acyclic_partial: The texts of the general entities of an accepted document refer to no entity at all \u2014 so to none in a cycle \u2014 apart from the five predefined ones, whose texts are character references."
  },
  {
   "property": "C56",
   "status": "partial",
   "theorems": [
    "Wizard.Props.C56_convert_partial",
    "Wizard.Props.C56_terminator_violated",
    "Wizard.Props.C56_plain",
    "Wizard.Props.C56_document_violated",
    "Wizard.Props.C56_unpaired_violated"
   ],
   "note": "False as stated \u2014 C56_terminator_violated: **C56 is false**: for every non-empty text in UTF-16 the terminating NUL is written behind the memory of the converted text, which has just been cut to the length of the text (xml-tree.c:1388-1390). | C56_document_violated: **C56 is false** for documents: `NewXMLTree` measures the document with `strlen` (xml-tree.c:2030), so a document in UTF-16 ends at the first byte that is zero. If its first character is below 256, as the `<` of every XML document, nothing is left: the conversion returns NULL, reported as a failed memory allocation. | C56_unpaired_violated: **C56 is false** for surrogates that are not paired: a lone surrogate takes the next character with it, whatever that is. For every lone surrogate and every character of one code unit after it, a single character is written. Proved in part \u2014 C56_convert_partial: without its last step: for every text in UTF-16 of either byte order with a byte order mark (an odd byte at the end is ignored), whatever follows it and whatever uninitialised memory holds, the loop ends inside its memory, and the text it has written is the UTF-8 of the same characters. What is missing is the last step, which is wrong: `C56_terminator_violated`."
  },
  {
   "property": "C57",
   "status": "partial",
   "theorems": [
    "Wizard.Props.C57_marks",
    "Wizard.Props.C57_head_tail_partial",
    "Wizard.Props.C57_root_extension_partial",
    "Wizard.Props.C57_base",
    "Wizard.Props.C57_absolute_violated",
    "Wizard.Props.C57_hidden_violated",
    "Wizard.Props.C57_query_violated",
    "Wizard.Props.C57_underrun_violated",
    "Wizard.Props.C57_overread_violated"
   ],
   "note": "False as stated \u2014 C57_absolute_violated: is false of absolute paths: a file in the root directory has the same head and the same tail as a file of that name in the working directory (the head of `/x` is empty, not `/`), so joining the two cannot give the path back. | C57_hidden_violated: is false of hidden files: for a name that begins with its only dot the root is empty and so is the extension; the name is in neither of them. | C57_query_violated: is false of names with a question mark: the extension ends there, so root and extension do not give the path back. | C57_underrun_violated: is false of paths that are only a subnode: once `[...]` is cut off, the text is empty, and asking for the root reads the byte before the caller's buffer. | C57_overread_violated: is false of long paths on a filesystem: to remove the filesystem as many bytes are moved as the whole path has, starting behind the colon, so bytes behind the caller's buffer are read when filesystem and path together do not fit in it. Proved in part \u2014 C57_head_tail_partial: Head and tail: if the canonical path has a separator, the head is what is before the last one and the tail what is behind it, so that both joined by the separator are the path; otherwise the head is empty and the tail is the path. Missing: the two cases cannot be told apart when the head is empty (`C57_absolute_violated`). | C57_root_extension_partial: Root and extension: if the name has a dot behind its first byte, the extension is what follows the last one, up to a question mark, and the root what precedes it, so that both joined by the dot are the path; if it has no dot, the root is the path and the extension empty. Missing: names that begin with their only dot (`C57_hidden_violated`), extensions with a question mark (`C57_query_violated`), and paths that are only a subnode (`C57_underrun_violated`)."
  },
  {
   "property": "C58",
   "status": "proved",
   "theorems": [
    "Wizard.Props.C58_reads",
    "Wizard.Props.C58_in_order"
   ],
   "note": ""
  },
  {
   "property": "C59",
   "status": "proved",
   "theorems": [
    "Wizard.Props.C59_disjoint",
    "Wizard.Props.C59_acquire",
    "Wizard.Props.C59_relinquish",
    "Wizard.Props.C59_resize",
    "Wizard.Props.C59_example"
   ],
   "note": ""
  },
  {
   "property": "C60",
   "status": "partial",
   "theorems": [
    "Wizard.Props.C60_granted_partial",
    "Wizard.Props.C60_gap_violated",
    "Wizard.Props.C60_resize_violated"
   ],
   "note": "False as stated \u2014 C60_gap_violated: **C60 fails.** A segment is 96 bytes larger than the request, rounded up to 2 MiB, but the request itself grows by up to 55 bytes: for a size that lies 96 to 119 bytes below a multiple of 2 MiB the new segment is too small for the block. `AcquireWizardMemory` then returns NULL although the system has granted the memory (which stays in the pool). | C60_resize_violated: **C60 fails.** For the same sizes `ResizeWizardMemory` ends the process with a failed assertion although the system has granted the memory. Proved in part \u2014 C60_granted_partial: the part that holds: if the system grants the segment, the request that asked for it is met, unless its size falls into one of the gaps of `C60_gap_violated`."
  },
  {
   "property": "C61",
   "status": "proved",
   "theorems": [
    "Wizard.Props.C61_token_progress",
    "Wizard.Props.C61_token_no_progress_extent1"
   ],
   "note": ""
  },
  {
   "property": "C62",
   "status": "partial",
   "theorems": [
    "Wizard.Props.C62_lookup_current_partial",
    "Wizard.Props.C62_lookup_violated"
   ],
   "note": "Looking up the key just returned leaves the iteration unchanged (proved for every history); looking up other keys of the bucket repeats or drops entries (violated)."
  },
  {
   "property": "C63",
   "status": "proved",
   "theorems": [
    "Wizard.Props.C63_remove_by_value"
   ],
   "note": ""
  },
  {
   "property": "C64",
   "status": "proved",
   "theorems": [
    "Wizard.Props.C64_clone"
   ],
   "note": ""
  },
  {
   "property": "C65",
   "status": "proved",
   "theorems": [
    "Wizard.Props.C65_aes_fips197",
    "Wizard.Props.C65_aes_other_key_sizes"
   ],
   "note": ""
  },
  {
   "property": "C66",
   "status": "proved",
   "theorems": [
    "Wizard.Props.C66_chacha20",
    "Wizard.Props.C66_last_nonce",
    "Wizard.Props.C66_chacha20_no_nonce"
   ],
   "note": ""
  },
  {
   "property": "C67",
   "status": "partial",
   "theorems": [
    "Wizard.Props.C67_chacha_key_partial",
    "Wizard.Props.C67_chacha_short_key_violated"
   ],
   "note": "Holds for keys of 16 bytes or more; for shorter keys old key words stay in force (violated)."
  },
  {
   "property": "C68",
   "status": "proved",
   "theorems": [
    "Wizard.Props.C68_generated_nonce",
    "Wizard.Props.C68_ready",
    "Wizard.Props.C68_encipher",
    "Wizard.Props.C68_decipher"
   ],
   "note": ""
  },
  {
   "property": "C69",
   "status": "partial",
   "theorems": [
    "Wizard.Props.C69_keystream_reuse_violated"
   ],
   "note": "False: EncipherCipher restarts from the stored nonce for every message (violated, for every key and pair of messages)."
  },
  {
   "property": "C70",
   "status": "proved",
   "theorems": [
    "Wizard.Props.C70_serpent_conforms"
   ],
   "note": ""
  },
  {
   "property": "C71",
   "status": "proved",
   "theorems": [
    "Wizard.Props.C71_twofish_conforms"
   ],
   "note": ""
  },
  {
   "property": "C72",
   "status": "partial",
   "theorems": [
    "Wizard.Props.C72_twofish_key_partial",
    "Wizard.Props.C72_key_bytes_ignored_violated",
    "Wizard.Props.C72_short_key_violated"
   ],
   "note": "False: SetTwofishKey ignores bytes 16-22 of keys of 17-23 bytes and bytes 24-30 of keys of 25-31 bytes, and fills short keys with 01 00.. instead of zeros. The partial theorem gives the cipher for every key length."
  },
  {
   "property": "C73",
   "status": "partial",
   "theorems": [
    "Wizard.Props.C73_sha224_violated",
    "Wizard.Props.C73_sha224_short_partial"
   ],
   "note": "False as stated \u2014 C73_sha224_violated: The SHA-224 of the library is not the published SHA-224: `TransformSHA2224` (sha2224.c:562-568) adds only seven of the eight working variables to the accumulator, so from the second block on the digest is wrong. Fifty-six zero bytes are the shortest kind of such a message. Proved in part \u2014 C73_sha224_short_partial: Partial: for every message of at most 55 bytes, which fills one block, in every split and after any earlier messages, the digest is the published SHA-224."
  },
  {
   "property": "C74",
   "status": "partial",
   "theorems": [
    "Wizard.Props.C74_sha3_violated",
    "Wizard.Props.C74_keccak_partial"
   ],
   "note": "False as stated \u2014 C74_sha3_violated: None of the four SHA-3 functions of the library is that of FIPS 202: the message is followed by the padding of the original Keccak submission instead of the bits 01 and the padding; the digests of the empty message differ. Proved in part \u2014 C74_keccak_partial: Partial: for every message the four functions compute Keccak as submitted to the SHA-3 competition, with the capacity and output length of the SHA-3 function of that name."
  },
  {
   "property": "C75",
   "status": "partial",
   "theorems": [
    "Wizard.Props.C75_sha1_long_update_violated",
    "Wizard.Props.C75_sha256_long_update_violated",
    "Wizard.Props.C75_length_partial"
   ],
   "note": "False as stated \u2014 C75_sha1_long_update_violated: A string of 4 GiB or more given to one UpdateHash call of SHA-1 is hashed with its length modulo 4 GiB in the padding (sha1.c:604-605 keeps the length in an unsigned int): what goes through the compression function is not the padded message of FIPS 180-4. | C75_sha256_long_update_violated: The same for SHA-256. Proved in part \u2014 C75_length_partial: Partial: as long as every single string is shorter than 4 GiB (2^64 bytes for SHA-384 and SHA-512) the length in the padding is that of the whole message, which may be longer than 4 GiB."
  },
  {
   "property": "C76",
   "status": "partial",
   "theorems": [
    "Wizard.Props.C76_sha3_update_hangs_violated",
    "Wizard.Props.C76_update_returns_partial"
   ],
   "note": "False as stated \u2014 C76_sha3_update_hangs_violated: UpdateHash does not return: once a SHA-3 object holds bytes of an unfinished block, a string whose length is a multiple of 512 MiB makes UpdateSHA3 (sha3.c:797-822) loop for ever, the number of bits still to go being cut to 32 bits, all zero. The loop does not end within any number of turns. Proved in part \u2014 C76_update_returns_partial: Partial: for strings below the limits every call of a whole history of messages returns, so every UpdateHash ends within as many turns as the string has bytes."
  },
  {
   "property": "C77",
   "status": "partial",
   "theorems": [
    "Wizard.Props.C77_pseudo_violated",
    "Wizard.Props.C77_pseudo_partial",
    "Wizard.Props.C77_value_violated",
    "Wizard.Props.C77_value_partial"
   ],
   "note": "False: both functions return exactly 1.0 for the greatest words (violated); below 1.0 for all others and never above 1.0 (partial)."
  },
  {
   "property": "C78",
   "status": "partial",
   "theorems": [
    "Wizard.Props.C78_protocol_violated"
   ],
   "note": "False as stated \u2014 C78_protocol_violated: **C78 is false**: `ImportKeyringKey` (keyring.c:487-489) writes the protocol of the object and always a time stamp of 64 bits, but a record of protocol 1.0 is read without one. An object gets protocol 1.0 when a record of an old key ring is exported into it; imported from there into another key ring, the record is corrupt: exporting any id the ring did not hold before, the one just imported included, aborts the program, if the low 32 bits of the time stamp exceed the size of the record."
  },
  {
   "property": "C79",
   "status": "partial",
   "theorems": [
    "Wizard.Props.C79_first_violated",
    "Wizard.Props.C79_second_partial"
   ],
   "note": "False as stated \u2014 C79_first_violated: **C79 is false**: a lock file left by a process that died is removed, but the acquire that removes it fails all the same: the `continue` that `i--` prepares is a `break` (file.c:200-205). For every state with such a lock, with no other thread moving. Proved in part \u2014 C79_second_partial: in part: the next acquire of a thread succeeds if no other thread moves. Missing: the first one does not."
  },
  {
   "property": "C80",
   "status": "partial",
   "theorems": [
    "Wizard.Props.C80_keystream_violated"
   ],
   "note": "False as stated \u2014 C80_keystream_violated: **C80 is false**: all keys are enciphered with the same key stream, because `SetKeyInfo` sets the same nonce every time (key.c:324). After every history, for every two ids that hold keys, the exclusive or of what the memory holds for them is that of the two keys: whoever reads the memory and knows one key has all the others, up to the length of the known one."
  },
  {
   "property": "C81",
   "status": "partial",
   "theorems": [
    "Wizard.Props.C81_default_violated"
   ],
   "note": "False as stated \u2014 C81_default_violated: **C81 is false**: the default limit of memory is the number of mebibytes of the machine, taken for bytes (resource.c:915, 922). On every machine with pages of 4096 bytes it is at most a 2^20-th of its memory (rounded), and asking for that many bytes of virtual memory aborts the process."
  },
  {
   "property": "C82",
   "status": "partial",
   "theorems": [
    "Wizard.Props.C82_siblings_partial",
    "Wizard.Props.C82_siblings_violated"
   ],
   "note": "False as stated \u2014 C82_siblings_violated: **C82 is false** when a child is attached before the first child and has its tag: the old first child stays in the chain, so the chain has two nodes with the same tag. True for every tag. Proved in part \u2014 C82_siblings_partial: for nodes whose children were attached in document order, as a parser attaches them: after every such history, following `GetXMLTreeSibling` from the first child lists, for every tag that occurs among the children, exactly the first child with that tag, in document order. What is missing is any other order of attaching: `C82_siblings_violated`."
  },
  {
   "property": "C83",
   "status": "partial",
   "theorems": [
    "Wizard.Props.C83_order_partial",
    "Wizard.Props.C83_tags_partial",
    "Wizard.Props.C83_lost_violated",
    "Wizard.Props.C83_hidden_violated"
   ],
   "note": "False as stated \u2014 C83_lost_violated: **C83 is false** for the first child: with children `t`, `u`, `t` in document order, pruning the first leaves a child with tag `t` that is still there in document order, but that `GetXMLTreeChild` no longer finds; pruning it too dereferences a NULL pointer. True for all tags `t` and `u` that differ. | C83_hidden_violated: **C83 is false** when children are attached in another order: `t` at 5, `u` at 6, `t` at 0, `t` at 3; pruning the child at 3 hides the child with tag `u`, which is still there in document order, from `GetXMLTreeChild`. True for all tags that differ. Proved in part \u2014 C83_order_partial: for traversals in document order: after every history, pruning any child of any node works, the children of that node in document order are the others in the same order, and the children of every other node are what they were. What is missing is the traversal by tag: see `C83_tags_partial` and the counterexamples. | C83_tags_partial: for traversals by tag, for nodes whose children were attached in document order: pruning a child that is not the first child, or that is the only child with its tag, leaves for every tag exactly the other children with that tag, in the same order. What is missing: `C83_lost_violated` (the first child, when others have its tag) and `C83_hidden_violated` (other orders of attaching)."
  },
  {
   "property": "C84",
   "status": "partial",
   "theorems": [
    "Wizard.Props.C84_decode_partial",
    "Wizard.Props.C84_empty_violated"
   ],
   "note": "False as stated \u2014 C84_empty_violated: A reference to an entity with an empty text loses the end of the content: as many bytes as the reference is long. (The buffer for the new text is computed from the new length, but the old text is copied into it.) Proved in part \u2014 C84_decode_partial: Reading content: every character reference stands for its character, every reference to one of the five predefined entities for its character, every reference to a declared entity for its text, and every other byte for itself \u2014 for all declarations and all contents. Missing: entities with an empty text (`C84_empty_violated`)."
  },
  {
   "property": "C85",
   "status": "partial",
   "theorems": [
    "Wizard.Props.C85_lines_partial",
    "Wizard.Props.C85_end_violated",
    "Wizard.Props.C85_behind_violated"
   ],
   "note": "False as stated \u2014 C85_end_violated: A text that ends with a carriage return: the scan for line ends steps over the NUL and reads on behind the text. | C85_behind_violated: The scan changes what lies behind the text: here the byte behind the NUL. Proved in part \u2014 C85_lines_partial: The text of a CDATA section that does not end with a carriage return, or a carriage return and a line feed, is read with every line end turned into a line feed and nothing else changed. Missing: texts with such an end (`C85_end_violated`)."
  },
  {
   "property": "C86",
   "status": "partial",
   "theorems": [
    "Wizard.Props.C86_value_partial",
    "Wizard.Props.C86_token_partial"
   ],
   "note": "Missing: entities with an empty text and values ending in a carriage return, of which it is false (C84_empty_violated, C85_end_violated)."
  },
  {
   "property": "C87",
   "status": "proved",
   "theorems": [
    "Wizard.Props.C87_join",
    "Wizard.Props.C87_components"
   ],
   "note": ""
  },
  {
   "property": "C88",
   "status": "partial",
   "theorems": [
    "Wizard.Props.C88_append_partial",
    "Wizard.Props.C88_hidden_violated"
   ],
   "note": "False as stated \u2014 C88_hidden_violated: is false of hidden files: the whole name is taken for an extension and is replaced, so two different files get the same name. Proved in part \u2014 C88_append_partial: `AppendFileExtension` replaces the extension of a file name, or adds one to a name without extension, and leaves the rest of the path as it is. Missing: hidden files (`C88_hidden_violated`), and names with filesystem or subnode."
  },
  {
   "property": "C89",
   "status": "proved",
   "theorems": [
    "Wizard.Props.C89_chop"
   ],
   "note": ""
  },
  {
   "property": "C90",
   "status": "partial",
   "theorems": [
    "Wizard.Props.C90_path_partial",
    "Wizard.Props.C90_subnode_violated",
    "Wizard.Props.C90_directory_violated"
   ],
   "note": "False as stated \u2014 C90_subnode_violated: is false of numbers: `tag[2]` does not give the second child with the tag, but the child that follows the first one with the tag, whatever its tag is. | C90_directory_violated: is false of tags with a colon: which child `ns:tag` gives depends on the files in the working directory. If there is one called `ns`, the child with tag `tag` is meant, otherwise the child with tag `ns:tag`. Proved in part \u2014 C90_path_partial: After every history, `GetXMLTreePath` with a path of tags goes from a node to the first child with the first tag, from there to the first child with the second, and so on, whatever files there are. Missing: numbers in brackets (`C90_subnode_violated`) and tags with a colon (`C90_directory_violated`)."
  },
  {
   "property": "C91",
   "status": "partial",
   "theorems": [
    "Wizard.Props.C91_add_partial"
   ],
   "note": "Missing: numbers in brackets and tags with a colon, as in C90."
  },
  {
   "property": "C92",
   "status": "partial",
   "theorems": [
    "Wizard.Props.C92_writes_partial",
    "Wizard.Props.C92_extent_violated"
   ],
   "note": "False as stated \u2014 C92_extent_violated: is false once `SetBlobExtent` is called: on a file that is at least as large as the extent it reports success, but has put a NUL over the last byte within the extent and has moved to the start of the file, so the next bytes written replace the first ones instead of following the last one. (The result of `fseek`, 0, is taken for the position.) Proved in part \u2014 C92_writes_partial: A file that is opened for writing and written by any sequence of `WriteBlob`, `WriteBlobByte` and `WriteBlobString`: every call reports that it has written all its bytes, and the file is the bytes of the calls in order."
  },
  {
   "property": "C93",
   "status": "partial",
   "theorems": [
    "Wizard.Props.C93_unmapped_violated",
    "Wizard.Props.C93_readonly_violated"
   ],
   "note": "False as stated \u2014 C93_unmapped_violated: is false: `SetBlobExtent` on a large file that is read refuses, but has unmapped the data by then; the next call that reads accesses memory that is no longer there. | C93_readonly_violated: is false: writing a byte to a large file that is read does not fail but writes to memory that is mapped for reading; to the same file below the limit, or when the map is not granted, `fwrite` is called."
  },
  {
   "property": "C94",
   "status": "partial",
   "theorems": [
    "Wizard.Props.C94_enough_partial",
    "Wizard.Props.C94_stale_violated"
   ],
   "note": "False as stated \u2014 C94_stale_violated: is false when `errno` is a stale `EINTR`: reading at the end of a file does not change `errno`, so the loop goes on for ever when a chunk is larger than what is left. Proved in part \u2014 C94_enough_partial: `ReadBlobChunk` returns what it was asked for if there is as much, whatever `errno` is; otherwise only if `errno` is not `EINTR` (`C58_reads`)."
  },
  {
   "property": "C95",
   "status": "partial",
   "theorems": [
    "Wizard.Props.C95_refused_partial",
    "Wizard.Props.C95_wrap_violated",
    "Wizard.Props.C95_assert_violated",
    "Wizard.Props.C95_empty_violated"
   ],
   "note": "False as stated \u2014 C95_wrap_violated: **C95 fails.** The rounding up wraps around: for the largest sizes `AcquireWizardMemory` returns a block of 32 bytes, and no memory that was granted goes so far. | C95_assert_violated: **C95 fails.** For the sizes just below these the size becomes zero, and an assertion ends the process. | C95_empty_violated: **C95 fails.** For another range of sizes the length of the segment becomes zero: the pool asks the system for no bytes, gets a pointer to no bytes, and writes there. Proved in part \u2014 C95_refused_partial: the part that holds: a request that leaves room in the address space returns NULL if the system grants nothing and no free block is large enough; nothing is harmed, the pool can be used as before."
  },
  {
   "property": "C96",
   "status": "proved",
   "theorems": [
    "Wizard.Props.C96_joined"
   ],
   "note": ""
  },
  {
   "property": "C97",
   "status": "partial",
   "theorems": [
    "Wizard.Props.C97_destroyed_partial",
    "Wizard.Props.C97_forgotten_violated"
   ],
   "note": "False as stated \u2014 C97_forgotten_violated: **C97 fails.** When the pool has used its 1024 segments the list of unused ones is empty, which `AcquireWizardMemory` takes for a pool that was never set up: it clears the pool. The pool then has no free block, although nothing is allocated and two gigabytes were granted, and `DestroyWizardMemory` gives nothing of that back. Proved in part \u2014 C97_destroyed_partial: the part that holds: as long as the pool has not used up its 1024 segments, `DestroyWizardMemory` gives back to the system exactly what the system granted, each segment once."
  },
  {
   "property": "C98",
   "status": "partial",
   "theorems": [
    "Wizard.Props.C98_zeros_violated"
   ],
   "note": "False as stated \u2014 C98_zeros_violated: **C98 fails.** The documentation says that `RelinquishWizardMemory` zeros the memory. It does not: every byte of the block but the first sixteen stays in memory as it was."
  },
  {
   "property": "C99",
   "status": "partial",
   "theorems": [
    "Wizard.Props.C99_enciphers",
    "Wizard.Props.C99_restored_partial",
    "Wizard.Props.C99_file_partial",
    "Wizard.Props.C99_default_sizes",
    "Wizard.Props.C99_lost_violated",
    "Wizard.Props.C99_padded_violated",
    "Wizard.Props.C99_multiple_violated"
   ],
   "note": "False as stated \u2014 C99_lost_violated: fails: let the chunk size be a multiple of the block size, and let the file end within the last block of a chunk, or just before it. The padding then fills the chunk, `EOFBlob` is not true after it was read, and the padding is not removed: the HMAC does not match, and `decipher` fails (\"corrupt cipher chunk\") without the last chunk. The data are lost. With the default settings this happens to one file in 16384. (The hypothesis says that the HMAC of the last chunk is not that of a string of another length.) | C99_padded_violated: fails without HMACs and compression: for the same sizes the padding stays at the end of the deciphered file, and `decipher` reports success. | C99_multiple_violated: fails for files that end with a chunk, in CTR mode without HMACs and compression: the block of padding behind the last chunk is deciphered with the counter of the first block of a chunk instead of that of the block behind it, and unless the two key streams happen to end with the same byte, what `decipher` delivers, if anything, is not the file but the file and more. Proved in part \u2014 C99_restored_partial: A file that `encipher` has enciphered, behind any header, is restored exactly by `decipher` with the same settings, key and nonce: in every mode, for every chunk size, every invertible cipher, with or without HMACs and compression, and whether the files are mapped or not. | C99_file_partial: with the properties in a file of their own: what one program writes, the other opens and restores."
  },
  {
   "property": "C100",
   "status": "partial",
   "theorems": [
    "Wizard.Props.C100_checked_partial",
    "Wizard.Props.C100_cut_violated",
    "Wizard.Props.C100_swapped_violated"
   ],
   "note": "False as stated \u2014 C100_cut_violated: fails: an enciphered file that is cut between two chunks is accepted: `decipher` reports success, and the rest of the data are missing. | C100_swapped_violated: fails: the chunks of an enciphered file can be exchanged: `decipher` reports success, and its output has the chunks in the wrong order. Proved in part \u2014 C100_checked_partial: Let HMACs be used. Whatever the enciphered file contains, and whether `decipher` succeeds or fails, what it has written are strings, each of which has the HMAC that the file has before the chunk it was deciphered from."
  },
  {
   "property": "C101",
   "status": "partial",
   "theorems": [
    "Wizard.Props.C101_chunks_violated"
   ],
   "note": "False as stated \u2014 C101_chunks_violated: fails: in CTR and OFB mode, without compression, every chunk of a file is enciphered with the same stream of bytes, because the nonce is set again for every chunk: the difference of the enciphered bytes of two chunks is that of the bytes of the file."
  },
  {
   "property": "C102",
   "status": "proved",
   "theorems": [
    "Wizard.Props.C102_safe"
   ],
   "note": ""
  },
  {
   "property": "C103",
   "status": "partial",
   "theorems": [
    "Wizard.Props.C103_new",
    "Wizard.Props.C103_generated_partial"
   ],
   "note": "Missing: key rings whose last record is of protocol 1.0, of which it is false (C109_protocol_violated)."
  },
  {
   "property": "C104",
   "status": "partial",
   "theorems": [
    "Wizard.Props.C104_status_partial",
    "Wizard.Props.C104_added_violated"
   ],
   "note": "False as stated \u2014 C104_added_violated: **C104 is false**: `GenerateSecretKey` \"returns WizardTrue if a key is generated and successfully added to the secret key ring\", but the status of the import is overwritten by the constant (secret.c:332, 335), and the import itself only logs a failed write (keyring.c:501-506). On a full disk the call returns True with the id of a key the file does not hold: the content that is then enciphered with it (utilities/encipher.c:684-692) can not be deciphered again. Proved in part \u2014 C104_status_partial: partial: the half that holds. `GenerateSecretKey` returns False exactly if no passphrase can be had, and then the object and the key ring file are as they were. What is missing: that the key is in the key ring when it returns True, see `C104_added_violated`."
  },
  {
   "property": "C105",
   "status": "proved",
   "theorems": [
    "Wizard.Props.C105_sound"
   ],
   "note": ""
  },
  {
   "property": "C106",
   "status": "partial",
   "theorems": [
    "Wizard.Props.C106_search_partial",
    "Wizard.Props.C106_empty_violated"
   ],
   "note": "False as stated \u2014 C106_empty_violated: **C106 is false** for keys of less than eight bits: every key drawn is empty (secret.c:314-315), so once its id is in the key ring, as it is after the first call, `GenerateSecretKey` never returns. `encipher -key-length` asks for such keys: it parses the name of the option in place of its value (utilities/encipher.c:407-408) and gets 0. Proved in part \u2014 C106_search_partial: in part: `GenerateSecretKey` does not end while the ids of the keys it draws are in the key ring, and ends with the first that is not (C103)."
  },
  {
   "property": "C107",
   "status": "partial",
   "theorems": [
    "Wizard.Props.C107_stream_violated"
   ],
   "note": "False as stated \u2014 C107_stream_violated: **C107 is false**: the nonce is drawn once, when the object is made (secret.c:137), and the cipher key is the passphrase alone (secret.c:326-328). Two keys generated by one object under one passphrase are enciphered with the same stream: the difference of the two records in the file is the difference of the keys."
  },
  {
   "property": "C108",
   "status": "partial",
   "theorems": [
    "Wizard.Props.C108_first_partial",
    "Wizard.Props.C108_stamp_violated"
   ],
   "note": "False as stated \u2014 C108_stamp_violated: **C108 is false** for every further key: the search for its id (secret.c:321) reads protocol and time stamp of each record it passes into the object that is then imported (keyring.c:266-273), so the record of the new key gets the protocol and the time stamp of the last record of the key ring, not its own. Proved in part \u2014 C108_first_partial: in part: the first key of a key ring gets the protocol and the time stamp of the object, which are 1.1 and the time the object was made (`C103_new`)."
  },
  {
   "property": "C109",
   "status": "partial",
   "theorems": [
    "Wizard.Props.C109_protocol_violated"
   ],
   "note": "False as stated \u2014 C109_protocol_violated: **C109 is false** for a key ring whose last record is of protocol 1.0: the new record takes over the protocol, is written in the form of protocol 1.1, and the key ring is corrupt; authentication with the id just generated aborts the program, if the low 32 bits of that record's time stamp exceed the size of the new one."
  },
  {
   "property": "C110",
   "status": "partial",
   "theorems": [
    "Wizard.Props.C110_document_partial",
    "Wizard.Props.C110_first_attribute_violated",
    "Wizard.Props.C110_skipped_violated"
   ],
   "note": "False as stated \u2014 C110_first_attribute_violated: **C110 is false** for tags whose first attribute has a name that does not start with an ASCII letter or `_` (xml-tree.c:2086): names may start with `:` and with characters beyond ASCII, but then all the attributes of the tag are lost, and nothing is reported. The document `<a :x='1' y='2'/>` is read as `<a/>`. If a value has a slash, the document is refused: of `<a :x='1/2' y='2'/>` not even the root is read. | C110_skipped_violated: **C110 is false** for the elements rdf:Bag and rdf:Seq (xml-tree.c:1965-1986): they are left out with all that they hold. `<a><rdf:Bag><b c='1'>t</b></rdf:Bag></a>` is read as `<a></a>`. If an attribute in them has a slash in its value, as a URL has, the document is refused: `<a><rdf:Bag><b c='1/2'>t</b></rdf:Bag></a>`. Proved in part \u2014 C110_document_partial: partial: for every well-formed document that writes the tree `t`, `NewXMLTree` returns `t`, without a warning. What is missing, see `Simple`: elements called rdf:Bag or rdf:Seq, tags whose first attribute starts with `:` or a character beyond ASCII, and texts and values that end in a carriage return. For documents with an internal subset see C164."
  },
  {
   "property": "C111",
   "status": "partial",
   "theorems": [
    "Wizard.Props.C111_instructions_partial"
   ],
   "note": "Missing: the documents C110 excludes, of which it is false (the violations of C110)."
  },
  {
   "property": "C112",
   "status": "partial",
   "theorems": [
    "Wizard.Props.C112_round_trip_partial",
    "Wizard.Props.C112_nesting_violated",
    "Wizard.Props.C112_nesting_read_violated",
    "Wizard.Props.C112_instructions_violated"
   ],
   "note": "False as stated \u2014 C112_nesting_violated: **C112 is false** for elements with children but no content of their own (xml-tree.c:2763 and 2776): the element is written as if it were empty, and its children stand behind it. An element `<a><b/></a>` is written `<a/><b/>`, which is not a document. | C112_nesting_read_violated: The element `<a><b/></a>`, read and written. | C112_instructions_violated: **C112 is false** for processing instructions (xml-tree.c:2837-2856 and 2871-2890): an instruction that stands before the root is written three times, twice before the root and once behind it: read again, the document has three. Proved in part \u2014 C112_round_trip_partial: partial: an element is written as text that reads as that element. What is missing: see `Writable`; elements that have children but no content are lost, see `C112_nesting_violated`; characters beyond ASCII and control characters, see C53; default attributes and processing instructions, see `C112_instructions_violated`."
  },
  {
   "property": "C113",
   "status": "partial",
   "theorems": [
    "Wizard.Props.C113_writing_safe_partial",
    "Wizard.Props.C113_offset_violated",
    "Wizard.Props.C113_null_value_violated"
   ],
   "note": "False as stated \u2014 C113_offset_violated: **C113 is false** for an element that lies 4096 bytes or more into the content of its parent (xml-tree.c:2706 and 2664): written on its own it has no parent, but its offset is kept: a NUL is written that far behind an empty string, outside its buffer of 4096 bytes. | C113_null_value_violated: **C113 is false** for documents that are not well-formed but are read without a warning (xml-tree.c:2107-2118 and 2730): an attribute without quotes gets the value NULL, which writing the tree dereferences. `<a b=c></a>` is one. Proved in part \u2014 C113_writing_safe_partial: partial: writing an element of a tree, with any default attributes and processing instructions and any bytes in its texts, stays within its buffers and dereferences no NULL, if no attribute value is NULL, the element lies less than 4096 bytes into the content of its parent, and the elements below it lie less than 4096 bytes behind the content of theirs."
  },
  {
   "property": "C114",
   "status": "partial",
   "theorems": [
    "Wizard.Props.C114_read",
    "Wizard.Props.C114_restored_partial",
    "Wizard.Props.C114_protocol_violated",
    "Wizard.Props.C114_status_violated"
   ],
   "note": "False as stated \u2014 C114_protocol_violated: is false for protocol 1.0: an object that has read a reservoir of protocol 1.0 keeps this number and saves it, but with a time stamp, which protocol 1.0 does not have. The next read takes the low half of the time stamp for the length of the entropy and finds nothing, for every time stamp whose low half is larger than the file (random.c:717-726 and 1004-1006). | C114_status_violated: is false if the disk is full: when every write fails, the file is left as it was and yet the save reports success (random.c:1013-1019), so AcquireRandomInfo() does not notice. Proved in part \u2014 C114_restored_partial: For every digest, every earlier content of the file, longer or shorter, and every pattern of short and interrupted writes: after a save the file is the new reservoir followed by what was behind it, and reading it yields the saved bytes and the time stamp. Missing: objects of protocol 1.0 (see `C114_protocol_violated`) and failed writes (see `C114_status_violated`)."
  },
  {
   "property": "C115",
   "status": "partial",
   "theorems": [
    "Wizard.Props.C115_damaged_partial",
    "Wizard.Props.C115_header_violated"
   ],
   "note": "False as stated \u2014 C115_header_violated: is false: for every file that does not begin with the two digests of the header, or ends before the length of the entropy, the read does not return: it reports the damage with the path of the file, after it has destroyed the file object, and an assertion fails (random.c:690-695, 705-712, 728-733). AcquireRandomInfo() reads the reservoir, so no generator can be made until the file is removed by hand. Proved in part \u2014 C115_damaged_partial: Every file that begins with the header and holds all that stands before the entropy, however damaged the rest: the read returns, and if it yields entropy, the file holds it between its length and its checksum. Missing: files that are shorter or begin differently (see `C115_header_violated`)."
  },
  {
   "property": "C116",
   "status": "partial",
   "theorems": [
    "Wizard.Props.C116_crash_partial",
    "Wizard.Props.C116_first_violated",
    "Wizard.Props.C116_first_late"
   ],
   "note": "False as stated \u2014 C116_first_violated: is false for the first save: if the process dies after any number of bytes before the end of the length of the entropy, every later read of the reservoir fails an assertion (random.c:692-694, 709-711, 730-732). Proved in part \u2014 C116_crash_partial: If there is a reservoir, of any content behind its header, then whenever the process dies during a save, after any short and interrupted writes, the next read returns, and any entropy it yields stands in the file between its length and its checksum. Missing: the first save (see `C116_first_violated`)."
  },
  {
   "property": "C117",
   "status": "proved",
   "theorems": [
    "Wizard.Props.C117_burst"
   ],
   "note": ""
  },
  {
   "property": "C118",
   "status": "partial",
   "theorems": [
    "Wizard.Props.C118_threads_partial",
    "Wizard.Props.C118_remove_last_violated",
    "Wizard.Props.C118_last_violated",
    "Wizard.Props.C118_get_violated",
    "Wizard.Props.C118_capacity_violated"
   ],
   "note": "False as stated \u2014 C118_remove_last_violated: Two threads take the last value out of a list with one value: both find that there is one before either takes the semaphore. The second follows a NULL pointer. | C118_last_violated: A thread asks for the last value while another takes it out: it follows a NULL pointer. | C118_get_violated: A thread asks for the value at index 0 while another takes it out: it follows a NULL pointer. | C118_capacity_violated: Two threads append to a list of capacity 1: both find room before either takes the semaphore, and the list gets two values. From then on the test for a full list (`elements == capacity`) never holds, and the list takes any number of values. Proved in part \u2014 C118_threads_partial: Any number of threads call a list, in any interleaving. If a value that one thread looks for is not taken out by another (`hw`), and no two threads add to a list that may become full (`ha`), no thread runs into undefined behaviour, and all answers are those of a list whose calls are made one after the other. Missing: see the violations."
  },
  {
   "property": "C119",
   "status": "proved",
   "theorems": [
    "Wizard.Props.C119_threads",
    "Wizard.Props.C119_own_key"
   ],
   "note": ""
  },
  {
   "property": "C120",
   "status": "partial",
   "theorems": [
    "Wizard.Props.C120_threads_partial",
    "Wizard.Props.C120_lookup_violated",
    "Wizard.Props.C120_get_violated",
    "Wizard.Props.C120_iterate_violated",
    "Wizard.Props.C120_turns_partial"
   ],
   "note": "False as stated \u2014 C120_lookup_violated: A removal has, for a moment, no root, and the test before the semaphore is taken (splay-tree.c:887) finds no root: thread 1 looks up key 2, which thread 0 has put and nobody removes, and is told that it is not there. | C120_get_violated: Between the test and the semaphore another thread can remove the last entry: `GetValueFromSplayTree` then reads the key of a root that is not there (splay-tree.c:890-897). | C120_iterate_violated: Two threads that iterate: one takes the last entry between the test and the semaphore of the other, which then splays the tree at the NULL key (splay-tree.c:777-789) and starts over: after three calls the iteration over two entries still goes on. Proved in part \u2014 C120_threads_partial: Any number of threads add entries to a splay tree and look them up, and one of them may iterate over it: in every interleaving no thread runs into undefined behaviour, and all answers are those of an ordered map whose calls are made one after the other. What is missing, and false (below): threads that remove entries. | C120_turns_partial: As long as no thread begins or goes on with a call while another thread is in one, threads may also remove entries: all answers are those of an ordered map."
  },
  {
   "property": "C121",
   "status": "partial",
   "theorems": [
    "Wizard.Props.C121_tags_partial",
    "Wizard.Props.C121_behind_violated",
    "Wizard.Props.C121_closing_violated"
   ],
   "note": "False as stated \u2014 C121_behind_violated: **C121 is false** for text outside the root, which is no part of a document but is dropped without a warning (xml-tree.c:1579 and 2041-2043): `<a/>text` is read as `<a/>`, whatever the text. | C121_closing_violated: **C121 is false** for what stands behind the name in a closing tag, which is dropped without a warning (xml-tree.c:2217-2237): `<a></a b='1'>` is read as `<a></a>`. Proved in part \u2014 C121_tags_partial: A sequence of tags with text between them, each by itself well-formed, is read without a warning if and only if the tags are those of one element: a closing tag that does not match, an element that is not closed and a second root are reported. (Left out, as in C110: tags called rdf:Bag or rdf:Seq, and what `TagText.Plain` says.)"
  },
  {
   "property": "C122",
   "status": "partial",
   "theorems": [
    "Wizard.Props.C122_once_partial",
    "Wizard.Props.C122_returns_partial",
    "Wizard.Props.C122_openmp_violated"
   ],
   "note": "False as stated \u2014 C122_openmp_violated: **C122 is false** for the OpenMP build when threads call the library before it was started: `active_mutex` is tested and set without any lock, so that two threads may both initialise the mutex, the second while the first has it. Both then make a semaphore, each takes the lock of its own, and both load the cache: the first cache and the first semaphore are lost, and the two threads were inside together. Proved in part \u2014 C122_once_partial: Threads, however many, call a component for the first time, under any schedule. With mutexes of pthreads, or with locks of OpenMP after the library was started, no thread goes wrong; one semaphore is made and one cache is loaded at most; one thread at a time is between taking the semaphore and releasing it; and whoever returns finds that one cache. | C122_returns_partial: And no thread waits forever: whatever happened so far, every call can still be brought to its end, in a state where the cache is there."
  },
  {
   "property": "C123",
   "status": "partial",
   "theorems": [
    "Wizard.Props.C123_returns_partial",
    "Wizard.Props.C123_kept_partial",
    "Wizard.Props.C123_delivered_partial",
    "Wizard.Props.C123_lost_violated",
    "Wizard.Props.C123_self_violated",
    "Wizard.Props.C123_cross_violated"
   ],
   "note": "False as stated \u2014 C123_lost_violated: **C123 is false** for `CatchException`: it delivers the log and releases the semaphore before it clears the log, and what another thread throws in between is cleared without having been delivered. Both calls have returned, the log is empty, no handler was called. | C123_self_violated: **C123 is false** for an exception that inherits from itself: `InheritException` has its semaphore and waits for it in `ThrowException`, forever, whatever the schedule. | C123_cross_violated: **C123 is false** for two exceptions that inherit from each other in two threads: each has the semaphore of its own source and waits for that of the other, forever, whatever the schedule. Proved in part \u2014 C123_returns_partial: Threads share exceptions, and exceptions inherit only downwards in some order. Then no thread goes wrong and none waits forever: whatever happened so far, every thread can still make all its calls, and they return in their order. | C123_kept_partial: While threads only throw and inherit, in any order, nothing is lost under any schedule: no thread goes wrong; an exception that was thrown is in the log, or one that says the same; and whoever is about to return from inheriting has handed on all that the other one has then. | C123_delivered_partial: Whatever happened so far and whatever happens next, a thread that gets the semaphore in `CatchException` hands every warning and error that is in the log then to its handler."
  },
  {
   "property": "C124",
   "status": "partial",
   "theorems": [
    "Wizard.Props.C124_event_partial",
    "Wizard.Props.C124_filename",
    "Wizard.Props.C124_plain",
    "Wizard.Props.C124_xml_partial",
    "Wizard.Props.C124_module_violated",
    "Wizard.Props.C124_long_violated",
    "Wizard.Props.C124_xml_violated",
    "Wizard.Props.C124_noname_violated"
   ],
   "note": "False as stated \u2014 C124_module_violated: **C124 is false** for a source file without a name: `%m` looks at the byte before it. | C124_long_violated: **C124 is false** of long texts: the limit given to `CopyWizardString` is the size of the whole buffer, not of what is left of it. Every function name of 4096 bytes more than the event runs over the end. | C124_xml_violated: **C124 is false** of the XML format: of every entry of 4096 bytes more than the event or longer the end is cut off (its end tags with it). | C124_noname_violated: **C124 is false** without a name for the log file: a failed assert. Proved in part \u2014 C124_event_partial: For every format (of any length) and all texts of at most 4095 bytes, with a source file that has a name, the text of a log event is what the format says, and no byte is written outside the buffer. | C124_xml_partial: The XML format: the whole entry if it is shorter than the event and 4096 bytes."
  },
  {
   "property": "C125",
   "status": "partial",
   "theorems": [
    "Wizard.Props.C125_kept_partial",
    "Wizard.Props.C125_unlimited_violated",
    "Wizard.Props.C125_bound_violated",
    "Wizard.Props.C125_forged_violated"
   ],
   "note": "False as stated \u2014 C125_unlimited_violated: **C125 is false** of the limit \"unlimited\" (the largest number, log.c:1620): the first event to a file crashes. (The product overflows to a negative number, and 0 is more.) | C125_bound_violated: **C125 is false** of generations: whatever the limit and the number of generations (2000 and 3 in log.xml), the files of all generations together grow beyond every bound. (Files of earlier generations are appended to, not replaced.) | C125_forged_violated: **C125 is false** of which events there were: texts are not escaped, so that one event can pass for two (forged entries). Proved in part \u2014 C125_kept_partial: With a limit below 2^43 (megabytes), whatever a program logs and whenever it closes the log: nothing crashes, and the files tell exactly the events for which the call succeeded, in their order, each new file within the limit but for its last entry."
  },
  {
   "property": "C126",
   "status": "partial",
   "theorems": [
    "Wizard.Props.C126_parse_partial",
    "Wizard.Props.C126_trailing_violated",
    "Wizard.Props.C126_unknown_violated",
    "Wizard.Props.C126_unknown_lost_violated",
    "Wizard.Props.C126_listed_violated"
   ],
   "note": "False as stated \u2014 C126_trailing_violated: **C126 is false** of lists that end in a comma: every handler is lost. | C126_unknown_violated: **C126 is false** of lists with an unknown name (the others are lost too) and of names that only begin like a handler. | C126_unknown_lost_violated: **C126 is false** of a list with an unknown name: the handler named before it is lost as well. | C126_listed_violated: **C126 is false** of the list that `ListLogInfo` prints: the handlers of a mask are named rightly only for \"console\", \"file\" and \"event\" with \"stderr\": a log to \"stdout\" is listed as \"debug\". Proved in part \u2014 C126_parse_partial: A list of known handlers, in upper or lower case, separated by commas and blanks, turns on exactly these handlers."
  },
  {
   "property": "C127",
   "status": "partial",
   "theorems": [
    "Wizard.Props.C127_any_partial",
    "Wizard.Props.C127_lookup_violated",
    "Wizard.Props.C127_list_violated",
    "Wizard.Props.C127_mask",
    "Wizard.Props.C127_previous_violated"
   ],
   "note": "False as stated \u2014 C127_lookup_violated: **C127 is false** of names: no log has a name, and looking for one waits for ever (for the semaphore that the same thread holds). | C127_list_violated: **C127 is false** of patterns: listing logs by any other pattern crashes (unless all are hidden). | C127_previous_violated: **C127 is false** of the mask it returns: the new one, not (log.c:1719-1720) the previous one. Proved in part \u2014 C127_any_partial: Asking for any log returns the first one, and listing all lists all that are not hidden."
  },
  {
   "property": "C128",
   "status": "partial",
   "theorems": [
    "Wizard.Props.C128_stopwatch_partial",
    "Wizard.Props.C128_restart_violated",
    "Wizard.Props.C128_reset_violated",
    "Wizard.Props.C128_reset_stopped_violated"
   ],
   "note": "False as stated \u2014 C128_restart_violated: **C128 is false** of restarting a timer that runs: it goes on counting from the earlier start. | C128_reset_violated: **C128 is false** of `ResetTimer`: the timer still shows the time before, and resuming adds the time at which it was started. | C128_reset_stopped_violated: **C128 is false** of `ResetTimer` for a timer that is stopped, too: it keeps showing the time it was stopped at. Proved in part \u2014 C128_stopwatch_partial: Whatever is done with a timer (but resetting it, or restarting it with reset while it runs), the times it returns are those of a stopwatch, but for one epsilon per call at most."
  },
  {
   "property": "C129",
   "status": "partial",
   "theorems": [
    "Wizard.Props.C129_whole_partial",
    "Wizard.Props.C129_minutes_violated"
   ],
   "note": "False as stated \u2014 C129_minutes_violated: **C129 is false** in every zone that is not a number of whole hours from UTC, such as those of India: the timestamp of every instant denotes another. Proved in part \u2014 C129_whole_partial: In a zone of whole hours, at most a day away from UTC, the timestamp of every instant of the years 0 to 9999 denotes that instant."
  },
  {
   "property": "C130",
   "status": "partial",
   "theorems": [
    "Wizard.Props.C130_west_partial",
    "Wizard.Props.C130_roundtrip_partial",
    "Wizard.Props.C130_east_violated",
    "Wizard.Props.C130_elsewhere_violated",
    "Wizard.Props.C130_huge_violated"
   ],
   "note": "False as stated \u2014 C130_east_violated: **C130 is false** ahead of UTC: a timestamp read in the very zone it names loses its seconds and comes out `h` hours early; at UTC, where the library writes `+00:00`, it loses its seconds. | C130_elsewhere_violated: **C130 is false** of timestamps of another zone: read at UTC, one written `h` hours behind UTC comes out `2h` hours early, and the minutes of the zone do not count. | C130_huge_violated: **C130 is false** of numbers an `int` cannot hold: reading them is undefined. Proved in part \u2014 C130_west_partial: A timestamp written in a zone some whole hours behind UTC, and read there, is read as the instant it denotes, and all of it is read. | C130_roundtrip_partial: In such a zone, reading what was written gives the same instant."
  },
  {
   "property": "C131",
   "status": "partial",
   "theorems": [
    "Wizard.Props.C131_best_partial",
    "Wizard.Props.C131_mask_violated",
    "Wizard.Props.C131_tail_violated",
    "Wizard.Props.C131_pattern_violated",
    "Wizard.Props.C131_empty_violated",
    "Wizard.Props.C131_offset_violated"
   ],
   "note": "False as stated \u2014 C131_mask_violated: **C131 is false** of masks: they mask the value of the rule, not the content. A byte that is the value under the mask, but not the value, is not found. | C131_tail_violated: **C131 is false** of rules about the last bytes of the content: a rule about a byte asks for four. | C131_pattern_violated: **C131 is false** of types with only a pattern (as most of mime.xml are) when no file name is given: any content whatever is of them. | C131_empty_violated: **C131 is false** of empty content: whatever the name of the file, its type is the first there is. | C131_offset_violated: **C131 is false** of a negative offset (`offset=\"-1\"`): the first lookup to reach it fails an assertion. Proved in part \u2014 C131_best_partial: For every set of types whose rules are usual, every name and every content that is not empty, the lookup returns a type the file is of, of the least priority there is among them, and nothing if it is of none."
  },
  {
   "property": "C132",
   "status": "partial",
   "theorems": [
    "Wizard.Props.C132_read_partial",
    "Wizard.Props.C132_every",
    "Wizard.Props.C132_backslash_violated",
    "Wizard.Props.C132_digits_violated"
   ],
   "note": "False as stated \u2014 C132_backslash_violated: **C132 is false** of a magic number that ends in a backslash: it is read past its end. | C132_digits_violated: **C132 is false** of an octal before an octal digit (`\\\\1011` is not `A1`), of `\\\\8`, which is a zero and an eight, and of `\\\\a`, which is not the bell. Proved in part \u2014 C132_read_partial: A magic number written as characters, octals and escapes is read as the bytes it stands for."
  },
  {
   "property": "C133",
   "status": "partial",
   "theorems": [
    "Wizard.Props.C133_restored_partial",
    "Wizard.Props.C133_large_violated",
    "Wizard.Props.C133_unknown",
    "Wizard.Props.C133_level_partial"
   ],
   "note": "False as stated \u2014 C133_large_violated: **C133 is false** of messages of 4 GiB and more: zip reports success for `4 GiB * (i + 1) + k` bytes, and what it has compressed are the first `k`. Proved in part \u2014 C133_restored_partial: What is compressed at any level is restored exactly, into any object, given the size of the message or more. | C133_level_partial: A level the library does not take is reported."
  },
  {
   "property": "C134",
   "status": "partial",
   "theorems": [
    "Wizard.Props.C134_reported_partial",
    "Wizard.Props.C134_lzma_partial",
    "Wizard.Props.C134_cut_violated",
    "Wizard.Props.C134_short_violated"
   ],
   "note": "False as stated \u2014 C134_cut_violated: **C134 is false** of lzma: a stream that is cut is restored as far as it goes, and success is reported. | C134_short_violated: **C134 is false** of lzma: given too small a size, it restores only so much of the message, and reports success. Proved in part \u2014 C134_reported_partial: What zip or bzip restores (of less than 4 GiB) is all of a complete stream; a stream that is cut, damaged or longer than it was said to be is reported. | C134_lzma_partial: lzma reports streams that are damaged, if there is room for what comes before the damage."
  },
  {
   "property": "C135",
   "status": "proved",
   "theorems": [
    "Wizard.Props.C135_sha256"
   ],
   "note": ""
  },
  {
   "property": "C136",
   "status": "partial",
   "theorems": [
    "Wizard.Props.C136_entered_partial",
    "Wizard.Props.C136_unavailable_partial",
    "Wizard.Props.C136_eof_violated",
    "Wizard.Props.C136_error_violated",
    "Wizard.Props.C136_ignored_violated",
    "Wizard.Props.C136_long_violated"
   ],
   "note": "False as stated \u2014 C136_eof_violated: **C136 is false** at the end of the input: if the terminal is closed before anything is entered, the empty passphrase is returned as if it had been entered twice. | C136_error_violated: **C136 is false** if reading fails: `count` is overwritten by the result of writing the newline, so what was read before the error is returned as a passphrase that was entered. | C136_ignored_violated: **C136 is false** if a signal the program ignores interrupts reading: what was read before it is returned as a passphrase that was entered. | C136_long_violated: **C136 is false** for lines of 4096 bytes, which the prompt invites: only 4095 are kept, so two passphrases that differ in the last byte are accepted as the same, and what is returned is neither. Proved in part \u2014 C136_entered_partial: For all lines a user enters, each begun and stopped any number of times, on every terminal: `GetPassphrase` returns the text of the first pair of equal lines and reads nothing beyond it; if there is none yet, it goes on waiting. | C136_unavailable_partial: Without a terminal no passphrase is returned, and nothing is read."
  },
  {
   "property": "C137",
   "status": "partial",
   "theorems": [
    "Wizard.Props.C137_restored_partial",
    "Wizard.Props.C137_ttou_violated"
   ],
   "note": "False as stated \u2014 C137_ttou_violated: **C137 is false** for SIGTTOU: its disposition is saved but never restored, so that after an undisturbed passphrase the program's own disposition is lost, and a program that is to stop at SIGTTOU no longer does. Proved in part \u2014 C137_restored_partial: Whatever the user does and whichever signals arrive: when `GetPassphrase` returns, or the process dies of a signal it waited for, the attributes of the terminal and the dispositions of the signals are those from before; each signal that arrived was then sent again with them in place; and the process dies only of a signal whose disposition is to die."
  },
  {
   "property": "C138",
   "status": "partial",
   "theorems": [
    "Wizard.Props.C138_hidden_partial",
    "Wizard.Props.C138_stdin_violated"
   ],
   "note": "False as stated \u2014 C138_stdin_violated: **C138 is false** for a program started with its standard input closed: the terminal is then opened as descriptor 0, taken for the standard input, and the passphrase is echoed while it is entered. Proved in part \u2014 C138_hidden_partial: Whatever the user does and whichever signals arrive, no byte that `GetPassphrase` reads is echoed by the terminal, whether it returns, is killed or still waits."
  },
  {
   "property": "C139",
   "status": "partial",
   "theorems": [
    "Wizard.Props.C139_found_partial",
    "Wizard.Props.C139_unknown_partial",
    "Wizard.Props.C139_slash_violated",
    "Wizard.Props.C139_outside_violated",
    "Wizard.Props.C139_long_violated",
    "Wizard.Props.C139_blank_violated",
    "Wizard.Props.C139_second_violated",
    "Wizard.Props.C139_exception_partial",
    "Wizard.Props.C139_exception_unknown_partial",
    "Wizard.Props.C139_kinds_violated"
   ],
   "note": "False as stated \u2014 C139_slash_violated: if the text of a message has a slash in it, the messages behind it in the group get wrong tags. Here `Log/No` is not found: its text can be had as `Log/Yes/No`. | C139_outside_violated: of messages in no group only the first is found. | C139_long_violated: of a text of more than 255 bytes only the first 255 are found. | C139_blank_violated: white space before the `>` of a group, which XML allows, loses the last letter of its name. | C139_second_violated: in a file with two `<locale>` elements the messages of the second get tags that begin with a slash. | C139_kinds_violated: errors of hash maps and logs have no tag of their own (two cases are missing), so that their messages are looked up without kind and level, whatever the tag: they get the message of no severity. Proved in part \u2014 C139_found_partial: Loading a catalog succeeds whatever is loaded already (`cache`), whatever the name of its language, and wherever white space is put. Afterwards the tag of each of its messages gives the text of the message (of the last one, if several have the tag), and other tags give what they gave before. `number` is the length of the number a text begins with. The tag is a string, neither empty nor longer than 254 bytes. | C139_unknown_partial: A tag that no catalog defines is its own message, and so is the empty tag. | C139_exception_partial: After any catalog is loaded, the message of an exception is the text the catalog has for its kind, level and tag, in any case. | C139_exception_unknown_partial: If the loaded messages have none for its kind, level and tag, the tag itself is the message."
  },
  {
   "property": "C140",
   "status": "partial",
   "theorems": [
    "Wizard.Props.C140_first_partial",
    "Wizard.Props.C140_unnamed_violated"
   ],
   "note": "False as stated \u2014 C140_unnamed_violated: one `<configure>` element without a name, in whatever file, makes looking up any name that is not loaded before it crash. Proved in part \u2014 C140_first_partial: Whatever was looked up before, looking up a name gives the entry that was loaded first among those with the name, in upper or lower case, without a warning; if there is none, it gives none and warns."
  },
  {
   "property": "C141",
   "status": "partial",
   "theorems": [
    "Wizard.Props.C141_names_partial",
    "Wizard.Props.C141_entries_partial",
    "Wizard.Props.C141_unnamed_violated",
    "Wizard.Props.C141_locale_violated",
    "Wizard.Props.C141_mime_violated"
   ],
   "note": "False as stated \u2014 C141_unnamed_violated: an entry without a name that is not hidden makes listing by any pattern but `*` and the empty one crash (for MIME types: an entry without a type). | C141_locale_violated: **C141 is false** of messages: `GetLocaleList` leaves out the first message, whatever the messages are. | C141_mime_violated: **C141 is false** of MIME types: `GetMimeList` sorts by the addresses of its strings, not by the strings. Here `b` is before `a`, however it is sorted. Proved in part \u2014 C141_names_partial: The list of configurations for a pattern has the names of all entries that are not hidden and match the pattern, in alphabetical order. | C141_entries_partial: The entries listed for a pattern are all those that are not hidden and match, in the order of their files and, in each file, of their names. So it is for MIME types and messages."
  },
  {
   "property": "C142",
   "status": "partial",
   "theorems": [
    "Wizard.Props.C142_found_partial",
    "Wizard.Props.C142_xdg_violated",
    "Wizard.Props.C142_long_violated"
   ],
   "note": "False as stated \u2014 C142_xdg_violated: **C142 is false** where `XDG_CONFIG_HOME` is set: a file in `$XDG_CONFIG_HOME/WizardsToolkit` is not found, whatever its name, unless there is a file whose path ends in the name twice. | C142_long_violated: a directory whose path is longer than the limit is cut, and the name of the file is dropped: whatever is at the first 4095 bytes of the path is taken for the file. Proved in part \u2014 C142_found_partial: the files of a name are found in the directories of `WIZARD_CONFIGURE_PATH`, in the order of the directories, then in those the library was installed with, then in `$HOME/.config/WizardsToolkit`, and what is found first comes first: for directories without colons whose names, with the name of the file, are within the limit of paths, while `XDG_CONFIG_HOME` is not set."
  },
  {
   "property": "C143",
   "status": "partial",
   "theorems": [
    "Wizard.Props.C143_configure_partial",
    "Wizard.Props.C143_mime_partial",
    "Wizard.Props.C143_cache_partial",
    "Wizard.Props.C143_absolute_violated",
    "Wizard.Props.C143_root_violated"
   ],
   "note": "False as stated \u2014 C143_absolute_violated: `LoadConfigureCache` looks for an included file whose name begins with a separator beside the file that includes it, though `LoadMimeCache` does not: whatever the names are. | C143_root_violated: a file in the root directory includes files of the working directory. Proved in part \u2014 C143_configure_partial: loading a configuration file adds the entries of the files it includes and then its own, all of them, in order, to those that were there, and records of each in which file it is; an included file is looked for beside the file that includes it. For files that include one another 201 deep at most, with relative names, that are not in the root directory and whose paths are within the limit. | C143_mime_partial: the same of MIME files; an included file whose name begins with a separator is taken from there. | C143_cache_partial: the cache has the built-in entry and then those of all files that were found, those of the file found first first, so that (C140) a file in an earlier directory overrides those of later ones."
  },
  {
   "property": "C144",
   "status": "partial",
   "theorems": [
    "Wizard.Props.C144_arguments_partial",
    "Wizard.Props.C144_writable_partial",
    "Wizard.Props.C144_agree",
    "Wizard.Props.C144_behind_violated",
    "Wizard.Props.C144_inside_violated"
   ],
   "note": "False as stated \u2014 C144_behind_violated: what is written directly behind a closing quote is lost, whatever it is. | C144_inside_violated: quotes inside an argument do not keep it together, whatever is between them. Proved in part \u2014 C144_arguments_partial: the arguments of a text are those that are written in it, and `argc` is their number: where every argument is written without quotes, or as a whole between quotes. | C144_writable_partial: Every list of arguments can be written, if none has quotes of both kinds."
  },
  {
   "property": "C145",
   "status": "partial",
   "theorems": [
    "Wizard.Props.C145_configure_partial",
    "Wizard.Props.C145_configure_short_partial",
    "Wizard.Props.C145_shorter_violated",
    "Wizard.Props.C145_stream_partial",
    "Wizard.Props.C145_file_partial",
    "Wizard.Props.C145_map_partial",
    "Wizard.Props.C145_short_partial",
    "Wizard.Props.C145_fails_partial",
    "Wizard.Props.C145_overrun_violated",
    "Wizard.Props.C145_interrupted_violated",
    "Wizard.Props.C145_failed_violated"
   ],
   "note": "False as stated \u2014 C145_shorter_violated: **C145 is false** of files that become shorter while they are read, if a call was interrupted before, at any time, or `errno` was left so: neither `FileToBlob` nor `ConfigureFileToStringInfo` ever returns, as the end of the file does not set `errno`. | C145_overrun_violated: **C145 is false** of streams: if two calls of `read` in a row deliver more than 8193 bytes together, `FileToBlob` writes outside the memory it allocated, whatever the bytes are. The memory has room for the second piece only before the first is counted. | C145_interrupted_violated: **C145 is false** of streams: once a call was interrupted, at any time, `FileToBlob` never returns the stream: `errno` still is `EINTR` at the end of the stream, and it goes on reading (or has written outside its memory before). The same if `errno` was left so by something else. | C145_failed_violated: **C145 is false** of streams: if reading fails, what was read before is returned as if it were all, whatever it is, and nothing is reported. Proved in part \u2014 C145_configure_partial: A file of settings is read as a whole, mapped or in pieces of any sizes with interruptions anywhere; if it cannot be opened, or its end cannot be found, nothing is returned. | C145_configure_short_partial: A file of settings that turns out to be shorter than it was is not returned; nor is one that cannot be read to its end, whatever was interrupted. | C145_stream_partial: what a stream delivers, in pieces of any sizes, is returned as a whole, cut at `extent`: if any two pieces one behind the other have no more than 8193 bytes together (one more than the size of the stream, if that is known and smaller), and no call is interrupted. | C145_file_partial: a file of known size that cannot be mapped is read as a whole, up to `extent`, in pieces of any sizes and with interruptions anywhere. | C145_map_partial: a file that can be mapped is returned up to `extent`. | C145_short_partial: a file that cannot be opened, or turns out to be shorter than it was, is reported, if no call is interrupted. | C145_fails_partial: if reading a file of known size fails before all of it was read, that is reported, with pieces of any sizes and interruptions anywhere before."
  },
  {
   "property": "C146",
   "status": "partial",
   "theorems": [
    "Wizard.Props.C146_fresh_partial",
    "Wizard.Props.C146_exhausted_violated",
    "Wizard.Props.C146_twin_violated",
    "Wizard.Props.C146_directory_partial",
    "Wizard.Props.C146_directory_violated"
   ],
   "note": "False as stated \u2014 C146_exhausted_violated: relinquishing a temporary file does not give back its place: `used` goes up with every file acquired and never down, and when it reaches the limit no temporary file can be acquired, although there are none. | C146_twin_violated: if a new temporary file gets a name that differs from that of another in the case of letters only, the other file is removed while it is in use. | C146_directory_violated: if what was asked for is no directory, or its path has more than 4071 bytes, the file is silently made in the current working directory: its path has no slash. Proved in part \u2014 C146_fresh_partial: `AcquireUniqueFileResource` returns a file that was not there before, and changes no other file: if its name does not differ from that of another temporary file in the case of letters only. | C146_directory_partial: a temporary file is made in the directory that was asked for, or in the default directory if none was: if it is a directory, and its path is not too long."
  },
  {
   "property": "C147",
   "status": "partial",
   "theorems": [
    "Wizard.Props.C147_removes_partial",
    "Wizard.Props.C147_trash_violated",
    "Wizard.Props.C147_keep_violated",
    "Wizard.Props.C147_twin_violated"
   ],
   "note": "False as stated \u2014 C147_trash_violated: **C147 is false**: asked to remove a temporary file, `RelinquishUniqueFileResource` always returns False, although it does remove it. | C147_keep_violated: **C147 is false**: asked to keep a temporary file, `RelinquishUniqueFileResource` always removes it, and returns True. | C147_twin_violated: relinquishing a path that is not that of a temporary file, but differs from one in the case of letters only, removes the temporary file. Proved in part \u2014 C147_removes_partial: `RelinquishUniqueFileResource` removes the temporary file it is given, and no other file."
  },
  {
   "property": "C148",
   "status": "partial",
   "theorems": [
    "Wizard.Props.C148_removed_partial",
    "Wizard.Props.C148_limit_violated"
   ],
   "note": "False as stated \u2014 C148_limit_violated: **C148 is false** once the limit of files is reached: `AcquireUniqueFileResource` returns -1 but leaves the file it created, and nothing ever removes it. (It tries to remove the path of the directory instead.) Proved in part \u2014 C148_removed_partial: when the program ends, or a signal ends it, at any time, the files are those that were there before it acquired temporary files: all temporary files are removed, and no other."
  },
  {
   "property": "C149",
   "status": "partial",
   "theorems": [
    "Wizard.Props.C149_changed_partial",
    "Wizard.Props.C149_escape_violated",
    "Wizard.Props.C149_blank_violated",
    "Wizard.Props.C149_exit_violated"
   ],
   "note": "False as stated \u2014 C149_escape_violated: if the path of a file has an ampersand, `digest -authenticate` looks at another file, whose path has `&amp;` in its place, and never at this one: whether it has changed goes unnoticed. | C149_blank_violated: if the path of a file has a blank, `digest -authenticate` looks at another file, whose path is what is before the blank, and never at this one: whether it has changed goes unnoticed. (What is behind the blank begins with a letter or digit other than `d` and `r`.) | C149_exit_violated: **C149 is false** of what the program returns: 0, whatever has changed, as long as all files can be opened. Proved in part \u2014 C149_changed_partial: what `digest` writes about files, `digest -authenticate` reads back: it says of exactly those files whose digest has changed since that it has, and of those that have gone that they are missing, with the dates and digests of each, in order: for files whose paths have graphic ASCII characters only, without angle brackets, quotes and ampersands, and fewer than 4084 of them."
  },
  {
   "property": "C150",
   "status": "partial",
   "theorems": [
    "Wizard.Props.C150_forever_violated",
    "Wizard.Props.C150_overrun_violated",
    "Wizard.Props.C150_ignored_violated",
    "Wizard.Props.C150_ends_partial"
   ],
   "note": "False as stated \u2014 C150_forever_violated: if a digest file begins with white space, a byte order mark or anything else that is no graphic ASCII character, authenticating it never ends. | C150_overrun_violated: 4096 characters or more without white space and `>` are written over the end of the memory for a key. | C150_ignored_violated: behind `<?xml version=\"1.0\" ?>`, with a blank before the question mark, nothing is read: whatever has changed, authenticating is done and says nothing. Proved in part \u2014 C150_ends_partial: authenticating a digest file ends, and stays inside its memory, if the file has graphic ASCII characters and white space only, does not begin with white space and has fewer than 4096 characters between white space."
  },
  {
   "property": "C151",
   "status": "partial",
   "theorems": [
    "Wizard.Props.C151_content_partial",
    "Wizard.Props.C151_growing_violated"
   ],
   "note": "False as stated \u2014 C151_growing_violated: **C151 is false** of files that grow while they are read: behind a short piece that ended the file a longer one is read into memory that is too small for it. Proved in part \u2014 C151_content_partial: the digest is that of the whole content of a file if every piece but the last has 8192 bytes: as it is when the file does not change."
  },
  {
   "property": "C152",
   "status": "partial",
   "theorems": [
    "Wizard.Props.C152_settings_partial",
    "Wizard.Props.C152_changed_partial",
    "Wizard.Props.C152_chunks_violated",
    "Wizard.Props.C152_name_violated"
   ],
   "note": "False as stated \u2014 C152_chunks_violated: **C152 is false** of chunks of 4 GiB or more: `decipher` reads the length of the chunks modulo 4 GiB, as another length than `encipher` has recorded and used. | C152_name_violated: **C152 is false** of names of files that close their quotes: a file whose path ends in `\"><b/>` is enciphered, but `decipher` never ends with what `encipher` has written. Proved in part \u2014 C152_settings_partial: what `encipher` records in front of a file is what `decipher` finds there: every setting, without complaint, and behind it the enciphered content, whatever settings there were before, whenever and wherever it is read. What is missing: chunks of 4 GiB or more, texts with control characters, `<` and `&`, and names of files with control characters, `<`, `&` and quotes. | C152_changed_partial: if anything in the settings of the packet is changed so that their digest is another one, `decipher` refuses the file."
  },
  {
   "property": "C153",
   "status": "partial",
   "theorems": [
    "Wizard.Props.C153_forever_violated",
    "Wizard.Props.C153_overrun_violated",
    "Wizard.Props.C153_ends_partial"
   ],
   "note": "False as stated \u2014 C153_forever_violated: deciphering a file that begins with white space, a zero or anything else that is no graphic ASCII character never ends. | C153_overrun_violated: deciphering a file that begins with 4096 letters and digits or more writes behind the end of its memory for a key. Proved in part \u2014 C153_ends_partial: deciphering ends, and stays inside its memory, if the file has graphic ASCII characters and white space only, does not begin with white space and has fewer than 4096 characters between white space; unless there is a part of the file that is, without quotes, the digest of the settings in it."
  },
  {
   "property": "C154",
   "status": "partial",
   "theorems": [
    "Wizard.Props.C154_options_partial",
    "Wizard.Props.C154_keylength_violated",
    "Wizard.Props.C154_random_violated",
    "Wizard.Props.C154_compress_violated",
    "Wizard.Props.C154_chunksize_violated"
   ],
   "note": "False as stated \u2014 C154_keylength_violated: **C154 is false** of the length of the key: whatever length is asked for, the key has no bits at all. (`strtod` finds no number in `-key-length`.) | C154_random_violated: **C154 is false** of `-random`, which the usage describes: with whatever hash, it is an unrecognized option. | C154_compress_violated: **C154 is false** of `-(de)compress`, which the usage describes: it is taken for the name of the file to read, and the file to read for the file to write. With the file to write behind it there are too many files. | C154_chunksize_violated: **C154 is false** of chunk sizes below nothing: the conversion to `size_t` is undefined; nothing asks whether the argument makes sense. Proved in part \u2014 C154_options_partial: whatever options, switches and two names of files are given, in any order and any number, `encipher` reads the first file and writes the second with the settings that are asked for: for each setting the last option that names it counts, and without one the default. What is missing: the length of the key, `-debug`, `-log`, `-list`, `-random`, `-(de)compress`, and options that mean nothing."
  },
  {
   "property": "C155",
   "status": "proved",
   "theorems": [
    "Wizard.Props.C155_owned",
    "Wizard.Props.C155_destroyed",
    "Wizard.Props.C155_reset"
   ],
   "note": ""
  },
  {
   "property": "C156",
   "status": "partial",
   "theorems": [
    "Wizard.Props.C156_partial",
    "Wizard.Props.C156_iterator_partial",
    "Wizard.Props.C156_iterator_violated",
    "Wizard.Props.C156_same_key_violated"
   ],
   "note": "False as stated \u2014 C156_iterator_violated: After every history: once the iterator is reset, deleting the smallest key (here `b.1`) relinquishes that key and leaves the iterator on it; if another key is in the tree, the next call of `GetNextKeyInSplayTree` hands the relinquished key to the comparison. | C156_same_key_violated: Putting a key pointer that is already in the tree, to change its value, relinquishes the pointer, which stays in the tree as the key: the next comparison reads it, and destroying the tree relinquishes it again. Proved in part \u2014 C156_partial: If each key is put once, the keys in the tree are none of those that are relinquished or handed back, and no key is relinquished twice. | C156_iterator_partial: **C156 (iterator)** After every history, as long as the calls since the iterator was reset remove and replace nothing, the key at which the iterator goes on is a key in the tree, or NULL."
  },
  {
   "property": "C157",
   "status": "partial",
   "theorems": [
    "Wizard.Props.C157_owned_partial"
   ],
   "note": "Missing: puts whose table cannot grow for lack of memory, of which it is false (the violations of C158)."
  },
  {
   "property": "C158",
   "status": "partial",
   "theorems": [
    "Wizard.Props.C158_partial",
    "Wizard.Props.C158_growth_violated",
    "Wizard.Props.C158_element_violated",
    "Wizard.Props.C158_full_violated"
   ],
   "note": "False as stated \u2014 C158_growth_violated: A put for which the larger table cannot be allocated reports failure, but the binding is in the map: a caller that then releases its key and value has left dangling pointers there, and `DestroyHashmap` relinquishes them too. Here with the first put into a map of capacity 2. | C158_element_violated: A put that rebinds a key and has no memory for the new element reports failure, but the old binding is gone: its key and value are relinquished, a lookup finds nothing, and the map still counts an entry. | C158_full_violated: Also with all the memory it asks for: a map of the second largest size whose keys have one hash takes 4194299 keys; the put of the next one reports failure, but a lookup finds it. Proved in part \u2014 C158_partial: After every history: a put that reports failure although there is memory for a list element, and the table can grow, changes nothing and relinquishes nothing; and a put of a key that is not in the map leaves the bindings as they are if there is no memory for the element."
  },
  {
   "property": "C159",
   "status": "proved",
   "theorems": [
    "Wizard.Props.C159_list_destroyed"
   ],
   "note": ""
  },
  {
   "property": "C160",
   "status": "partial",
   "theorems": [
    "Wizard.Props.C160_kept_partial",
    "Wizard.Props.C160_sound_partial",
    "Wizard.Props.C160_exempt_partial",
    "Wizard.Props.C160_dropped_violated",
    "Wizard.Props.C160_chunk_violated",
    "Wizard.Props.C160_ignored_violated"
   ],
   "note": "False as stated \u2014 C160_dropped_violated: A library may drop the bytes that `fflush` could not write. Then every write call takes all of its bytes, the disk is full when `CloseBlob` flushes them, `fclose` finds nothing left to write and returns 0, and this result replaces the status: `CloseBlob` returns true, and the file is empty. For every text, however long the buffer, if it holds the text. | C160_chunk_violated: `WriteBlobChunk` goes on after a short count, without looking at the error. If the library drops what it could not write, it returns the full count although bytes taken before are gone, and `CloseBlob` returns true on every kind of stream. | C160_ignored_violated: `CloseBlob` does not tell of a write that failed before, even with a library that keeps what it could not write: it looks at the error indicator only if the status, which write calls do not set, says that there was an error. The utilities that make digests and keyrings ignore what `WriteBlobString` returns, and rely on `CloseBlob`: the end of the file is missing, and nobody is told. Proved in part \u2014 C160_kept_partial: Whatever the system calls do, if `CloseBlob` returns true then the file holds the bytes that the write calls said they had taken, in order, and nothing else. | C160_sound_partial: Every write call takes all of its bytes, the file holds them in order, and `CloseBlob` returns true, unless `fclose` fails to close the file. | C160_exempt_partial: Whatever the system calls do and whatever the library does with bytes that it could not write, if each call returned what it should and `CloseBlob` returns true, then the file holds all bytes."
  },
  {
   "property": "C161",
   "status": "partial",
   "theorems": [
    "Wizard.Props.C161_partial",
    "Wizard.Props.C161_damaged_violated"
   ],
   "note": "False as stated \u2014 C161_damaged_violated: A file that cannot be read from some place on is read as if it ended there: for every file, every place and every sequence of read calls, each call delivers what it would deliver for the shorter file, which is sound, and `CloseBlob` returns true for both, without looking at the error indicator. The utilities end their loops when a read delivers nothing, so they encipher, or compute the digest of, a shorter file, and tell nobody. Proved in part \u2014 C161_partial: Whatever a file holds and wherever it cannot be read, the bytes that the read calls deliver are the first bytes of the file, in order, none of them from behind the damage; and if the end-of-file indicator is set, they are all of them."
  },
  {
   "property": "C162",
   "status": "partial",
   "theorems": [
    "Wizard.Props.C162_partial",
    "Wizard.Props.C162_standard_partial",
    "Wizard.Props.C162_exempt_violated",
    "Wizard.Props.C162_failed_violated",
    "Wizard.Props.C162_extend_violated",
    "Wizard.Props.C162_packed_violated"
   ],
   "note": "False as stated \u2014 C162_exempt_violated: A command, a named pipe or a descriptor is opened, and whatever the client does, it is never closed: `OpenBlob` marks the stream as not to be closed. A command that reads from the toolkit never sees the end of its input, is not waited for, and nobody is told whether it succeeded. | C162_failed_violated: Each time a file cannot be opened, a semaphore is lost. | C162_extend_violated: When a file that is read through a map is to be extended, it is refused, but the map and the share of the map resource are released, and again by `CloseBlob`: other maps may have taken that place, and the toolkit grants more than its limit. For every large file. | C162_packed_violated: A compressed file is closed and opened again for decompression; if that fails, for want of descriptors or memory, `fileno` is called with NULL. Proved in part \u2014 C162_partial: Whatever a client does with it, however often it is closed, everything that was acquired for a regular file is released once: its memory, semaphore, `FILE` pointer or compressed stream, its map and the share of the map resource; and never more than was acquired. | C162_standard_partial: They are left open, and everything acquired is released."
  },
  {
   "property": "C163",
   "status": "partial",
   "theorems": [
    "Wizard.Props.C163_declared_partial",
    "Wizard.Props.C163_placed_partial",
    "Wizard.Props.C163_behind_violated",
    "Wizard.Props.C163_name_violated",
    "Wizard.Props.C163_again_violated",
    "Wizard.Props.C163_literal_violated",
    "Wizard.Props.C163_bracket_violated"
   ],
   "note": "False as stated \u2014 C163_behind_violated: **C163 is false** for what follows a list of attributes whose last attribute has a default value (xml-tree.c:1878, 1750): the code ends the value with a NUL, does not step over it, and takes it for the end of the declarations. Whatever follows such a list \u2014 entities, further lists \u2014 is not read, and no warning is raised. | C163_name_violated: **C163 is false** for entities whose name starts with a `:` or a character beyond ASCII (xml-tree.c:1762): the declaration and all that follow it are not read, and no warning is raised. | C163_again_violated: **C163 is false** for a second list of attributes for one element (xml-tree.c:1832-1836): it is looked up by the last name in the declaration before it instead of by its tag, so it is stored apart, where no look-up finds it. Behind `<!ATTLIST a b NMTOKEN #IMPLIED><!ATTLIST a c CDATA \"1\">` elements `a` have no default for `c`. | C163_literal_violated: **C163 is false** for literals with a `>` (xml-tree.c:1776, 1941): the declaration is taken to end there, and a `%` in the rest of the literal ends the reading. `<!NOTATION n SYSTEM \"a>%b\">` is well formed; the entity declared behind it is not known. | C163_bracket_violated: **C163 is false** for declarations with `]>` in a comment or a literal (xml-tree.c:2282-2286): the declarations are taken to end there. `<!DOCTYPE a [<!-- ]> --><!ENTITY g \"z\">]><a>&g;</a>` is refused. Proved in part \u2014 C163_declared_partial: The declarations between the brackets of a document type: entities, elements, notations, comments, processing instructions, and then one list of attributes. Behind them every reference to a declared entity reads as the text of its first declaration; an element of the listed tag that does not set an attribute has the declared default, with white space and words as its type says, and no other element has; and the processing instructions are known. Missing: what follows a list of attributes (`C163_behind_violated`), a second list for an element (`C163_again_violated`), entities whose name does not start with an ASCII letter (`C163_name_violated`), literals with a `>` (`C163_literal_violated`), a `]` among the declarations (`C163_bracket_violated`), and entities whose text is empty, has references (`C55_refused`), or ends in a line end. | C163_placed_partial: The declarations that are read are those between the brackets, if no `]` is among them, and the document goes on behind the `>`. Missing: declarations with a `]` (`C163_bracket_violated`)."
  },
  {
   "property": "C164",
   "status": "partial",
   "theorems": [
    "Wizard.Props.C164_document_partial"
   ],
   "note": "Missing: the declarations C163 excludes, of which it is false (the violations of C163), and the documents C110 excludes."
  },
  {
   "property": "C165",
   "status": "partial",
   "theorems": [
    "Wizard.Props.C165_destroy_partial",
    "Wizard.Props.C165_inserted_violated",
    "Wizard.Props.C165_leak",
    "Wizard.Props.C165_pruned_partial"
   ],
   "note": "False as stated \u2014 C165_inserted_violated: **C165 is false** of the tables of elements that `NewXMLTreeTag` made and that were inserted into another tree: whatever else is done, giving up the tree frees the element but not its tables, which nothing can reach any more. Proved in part \u2014 C165_destroy_partial: **C165.** After every history of making elements, adding children and inserting elements, giving up the trees of any distinct tops, in any order, works: no element that was given up is touched again, exactly the elements of these trees are given up, each once, and so are the tables of the tops, each once; the children of the elements that stay are what they were. What is missing: the tables of the elements that `NewXMLTreeTag` made and that were inserted into a tree (`C165_inserted_violated`). | C165_pruned_partial: for elements that were pruned: after every history, pruning any child `x` of any element and then giving up any distinct ones of `x` and the tops, in any order, works: exactly the elements that hang from these are given up, each once. So a tree may be given up before or after what was pruned from it. The tables of `x` are never given up (what is missing is the same as in `C165_destroy_partial`)."
  },
  {
   "property": "C166",
   "status": "partial",
   "theorems": [
    "Wizard.Props.C166_get",
    "Wizard.Props.C166_set_partial",
    "Wizard.Props.C166_add_violated",
    "Wizard.Props.C166_remove_violated",
    "Wizard.Props.C166_own_violated"
   ],
   "note": "False as stated \u2014 C166_add_violated: **C166 is false** of adding: on every element with attributes, setting an attribute it does not have reads a string through a pointer that was never set. | C166_remove_violated: **C166 is false** of removing: on every element, removing an attribute it has moves bytes through a pointer that was never set. | C166_own_violated: **C166 is false** of a value that came from the element: setting an attribute to the pointer `GetXMLTreeAttribute` returned for it reads the string after it was freed. Proved in part \u2014 C166_set_partial: for the calls that work: for every element `NewXMLTree`, `NewXMLTreeTag` or `AddChildToXMLTree` makes, and every history of calls that give other values to attributes there are, add an attribute to an element without attributes or remove attributes there are not, every attribute reads as the history says. What is missing: adding a second attribute (`C166_add_violated`), removing one (`C166_remove_violated`), and values that came from the element itself (`C166_own_violated`)."
  },
  {
   "property": "C167",
   "status": "partial",
   "theorems": [
    "Wizard.Props.C167_threads_partial",
    "Wizard.Props.C167_up_partial",
    "Wizard.Props.C167_one_partial",
    "Wizard.Props.C167_race_violated",
    "Wizard.Props.C167_down_violated",
    "Wizard.Props.C167_configure_violated"
   ],
   "note": "False as stated \u2014 C167_race_violated: with OpenMP, two threads that start the toolkit at the same time: both find the mutex not initialised, and the second initialises it again. | C167_down_violated: with OpenMP, `WizardsToolkitTerminus` destroys the mutex of the semaphores after it let the other threads go on, which may hold it by then. | C167_configure_violated: whatever the threads call and however they are scheduled, when `WizardsToolkitGenesis` was called at least once, then after the last call there is a semaphore that was not given back: `WizardsToolkitTerminus` does not end the configure component. Proved in part \u2014 C167_threads_partial: in part: with pthreads, for every number of threads, all that they call and every schedule: nothing is undefined; whenever no thread is in a call, the toolkit is on if the last of the calls was `WizardsToolkitGenesis`, and its components are there, or it is off, and they are not; the calls take effect one after the other, those of each thread in their order; no semaphore is given back twice or used after that; and all threads can finish, whatever happened so far (no deadlock). Missing: the semaphore of the configure component, see `C167_configure_violated`, and OpenMP, see `C167_race_violated`. | C167_up_partial: in part: with pthreads, when threads only call `WizardsToolkitGenesis`: from the first return of one of the calls on, the toolkit and all components are there, whatever the other threads are doing. | C167_one_partial: in part: with OpenMP, if only one thread calls the two functions, in whatever order and however often: nothing is undefined, and between its calls the toolkit is on or off as the last call says."
  },
  {
   "property": "C168",
   "status": "partial",
   "theorems": [
    "Wizard.Props.C168_list",
    "Wizard.Props.C168_secret",
    "Wizard.Props.C168_told",
    "Wizard.Props.C168_corrupt_violated",
    "Wizard.Props.C168_missing_violated"
   ],
   "note": "False as stated \u2014 C168_corrupt_violated: A damaged key ring is not reported: wherever a record behind the mark is cut off, and whatever stands in place of a mark, the path of a file object is asked for after it was given up, and the program dies of it. | C168_missing_violated: A key ring that is not there, or cannot be opened, counts as listed: the status is True and nothing is written."
  },
  {
   "property": "C169",
   "status": "partial",
   "theorems": [
    "Wizard.Props.C169_list_partial",
    "Wizard.Props.C169_default_partial",
    "Wizard.Props.C169_option_violated",
    "Wizard.Props.C169_export_violated",
    "Wizard.Props.C169_ring_violated",
    "Wizard.Props.C169_export_partial",
    "Wizard.Props.C169_same_violated"
   ],
   "note": "Missing: command lines with options and exports, of which it is false (the violations of C169)."
  },
  {
   "property": "C170",
   "status": "partial",
   "theorems": [
    "Wizard.Props.C170_history_partial",
    "Wizard.Props.C170_leak",
    "Wizard.Props.C170_alias_violated",
    "Wizard.Props.C170_inplace",
    "Wizard.Props.C170_overlap_violated",
    "Wizard.Props.C170_null_violated"
   ],
   "note": "Missing: sources inside the string that is changed and NULL appended to a string, of which it is false (C170_alias_violated, C170_overlap_violated, C170_null_violated)."
  },
  {
   "property": "C171",
   "status": "partial",
   "theorems": [
    "Wizard.Props.C171_history_partial",
    "Wizard.Props.C171_kind_violated",
    "Wizard.Props.C171_place",
    "Wizard.Props.C171_long_violated"
   ],
   "note": "Missing: the kind of event, of which it is false (C171_kind_violated), and reasons that fill the buffer (C171_long_violated)."
  },
  {
   "property": "C172",
   "status": "partial",
   "theorems": [
    "Wizard.Props.C172_restored_partial",
    "Wizard.Props.C172_same_name_violated",
    "Wizard.Props.C172_same_name_decipher_violated"
   ],
   "note": "Missing: sizes of files that Restorable excludes (C99), key rings whose last record is of protocol 1.0 (C109), names of files with special characters and chunks of 4 GiB or more (C152), some options (C154), and one name given twice, of which it is false (C172_same_name_violated)."
  },
  {
   "property": "C173",
   "status": "partial",
   "theorems": [
    "Wizard.Props.C173_encipher_missing",
    "Wizard.Props.C173_decipher_missing",
    "Wizard.Props.C173_properties_missing_violated",
    "Wizard.Props.C173_decipher",
    "Wizard.Props.C173_encipher",
    "Wizard.Props.C173_checked_partial",
    "Wizard.Props.C173_decipher_fails_violated",
    "Wizard.Props.C173_encipher_fails_violated",
    "Wizard.Props.C173_downgrade_violated"
   ],
   "note": "Proved for every input: which files change, and that what is written is authenticated. Missing from C173_checked_partial: settings without HMACs and chunks of no bytes or of 2^62 and more. False: forged content is refused (C173_downgrade_violated), and failing programs leave their output as it was (C173_decipher_fails_violated, C173_encipher_fails_violated)."
  },
  {
   "property": "C174",
   "status": "partial",
   "theorems": [
    "Wizard.Props.C174_handlers_partial",
    "Wizard.Props.C174_ends_partial",
    "Wizard.Props.C174_flags_violated",
    "Wizard.Props.C174_blocked_violated",
    "Wizard.Props.C174_lost_violated",
    "Wizard.Props.C174_locked_violated",
    "Wizard.Props.C174_failed_violated"
   ],
   "note": "Missing from the proved parts: signals that arrive or wait during the start, failing sigaction, and a tree of temporary files in use when the signal arrives; false of flags and masks (C174_flags_violated), blocked signals (C174_blocked_violated, C174_failed_violated), waiting signals (C174_lost_violated) and locked trees (C174_locked_violated)."
  },
  {
   "property": "C175",
   "status": "partial",
   "theorems": [
    "Wizard.Props.C175_expand_partial",
    "Wizard.Props.C175_parameters_violated",
    "Wizard.Props.C175_root_violated",
    "Wizard.Props.C175_bracket_violated",
    "Wizard.Props.C175_hidden_violated",
    "Wizard.Props.C175_vanishes_violated",
    "Wizard.Props.C175_exists_violated",
    "Wizard.Props.C175_empty_violated",
    "Wizard.Props.C175_unread"
   ],
   "note": "Missing from the proved part: arguments with colons, spaces or commas, home directories written with a tilde. False: parameters of options (C175_parameters_violated), the root directory (C175_root_violated), brackets at the end (C175_bracket_violated), files that exist (C175_exists_violated), names of directories (C175_hidden_violated, C175_vanishes_violated), empty arguments (C175_empty_violated)."
  },
  {
   "property": "C176",
   "status": "partial",
   "theorems": [
    "Wizard.Props.C176_shows_partial",
    "Wizard.Props.C176_tells_partial",
    "Wizard.Props.C176_carried_violated",
    "Wizard.Props.C176_missing_violated",
    "Wizard.Props.C176_last_violated"
   ],
   "note": "Proved for files that encipher has written and for missing ones. Not shown: dates, properties, the random generator and the protocol. False of files that do not say everything (C176_carried_violated) and of the status (C176_missing_violated, C176_last_violated)."
  },
  {
   "property": "C177",
   "status": "partial",
   "theorems": [
    "Wizard.Props.C177_authenticate_partial",
    "Wizard.Props.C177_authenticate_holds",
    "Wizard.Props.C177_authenticate_violated",
    "Wizard.Props.C177_given_up_partial",
    "Wizard.Props.C177_holds",
    "Wizard.Props.C177_passphrase_violated",
    "Wizard.Props.C177_remains_violated",
    "Wizard.Props.C177_own_violated",
    "Wizard.Props.C177_seed_violated"
   ],
   "note": "What is found and what is given up is proved for all histories (C177_holds, C177_given_up_partial). False: the name of the passphrase's file is never given up (C177_passphrase_violated), the id set to itself is read after it was given up (C177_own_violated), keys and three quarters of seeds remain in memory (C177_remains_violated, C177_seed_violated). Not modelled: strings that are acquired and given up within a call, the keys inside ciphers. The same is proved of authentications (authenticate.c), which are a secret and one block more."
  },
  {
   "property": "C178",
   "status": "partial",
   "theorems": [
    "Wizard.Props.C178_value_partial",
    "Wizard.Props.C178_small_violated",
    "Wizard.Props.C178_odd_violated"
   ],
   "note": "Proved for decimal numbers without exponent and prefixes that multiply, exactly; that doubles round, white space before numbers, infinities and hexadecimal numbers are not in the statement. False of prefixes that divide (C178_small_violated) and of texts that are no units (C178_odd_violated)."
  },
  {
   "property": "C179",
   "status": "partial",
   "theorems": [
    "Wizard.Props.C179_shows_partial",
    "Wizard.Props.C179_tells",
    "Wizard.Props.C179_long_violated"
   ],
   "note": "Proved for names of fewer than 4076 bytes and lengths a double holds exactly; two strings of which the same is printed are the same (C179_tells). False of names of 4096 bytes or more, which make the program write memory behind its array (C179_long_violated)."
  },
  {
   "property": "C180",
   "status": "partial",
   "theorems": [
    "Wizard.Props.C180_status_partial",
    "Wizard.Props.C180_silent_violated",
    "Wizard.Props.C180_domain_violated",
    "Wizard.Props.C180_told_partial",
    "Wizard.Props.C180_handlers",
    "Wizard.Props.C180_client"
   ],
   "note": "Ends, statuses, handlers and client names proved for all histories; fatal exceptions are told if their message fits 4095 bytes. False of the toolkit's own fatal errors: no handler is called and nothing is shown (C180_silent_violated), and out of memory in SHA-2, zip, lzma and Serpent tells a wrong domain (C180_domain_violated). Handlers that leave by longjmp are not modelled."
  }
 ]
}