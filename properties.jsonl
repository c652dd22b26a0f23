{"id": "C01", "title": "Generated password has the requested composition", "statement": "If Generate(length, numDigits, numSymbols, noUpper, allowRepeat) succeeds with non-negative counts and single-byte, pairwise disjoint alphabets, the password has exactly `length` characters, exactly numDigits of them digits, exactly numSymbols symbols and all others letters.", "quantifier": "every generator configuration with ASCII disjoint alphabets, every argument tuple with non-negative counts, every byte stream delivered by the random reader", "why_tests_cant": "depends on the random stream and on all argument combinations; a test samples a few draws", "anchors": ["password/generate.go:Generator.Generate", "password/generate.go:randomInsert", "password/generate.go:randomElement"]}
{"id": "C02", "title": "Only permitted characters; noUpper excludes upper case", "statement": "Every character of a generated password comes from the configured lower-case, digit or symbol alphabets, or from the upper-case alphabet, and the latter only if noUpper is false; with the default generator and noUpper=true no character is in A-Z.", "quantifier": "every ASCII generator, every argument tuple, every random stream", "why_tests_cant": "a forbidden character could appear only for rare draws", "anchors": ["password/generate.go:Generator.Generate"]}
{"id": "C03", "title": "allowRepeat=false means no repeated character", "statement": "If Generate succeeds with allowRepeat=false (ASCII alphabets), no character occurs twice in the password.", "quantifier": "every ASCII generator (alphabets may overlap), all arguments, every random stream", "why_tests_cant": "a repeat shows only on colliding draws", "anchors": ["password/generate.go:Generator.Generate"]}
{"id": "C04", "title": "Which requests Generate rejects", "statement": "Generate returns ErrExceedsTotalLength iff length-numDigits-numSymbols<0; otherwise, with repeats forbidden, ErrLettersExceedsAvailable, ErrDigitsExceedsAvailable, ErrSymbolsExceedsAvailable are returned, checked in that order, iff the count exceeds the alphabet length; no other request gets a policy error, and every error comes with an empty password. A request with allowRepeat=true and length>=digits+symbols is never rejected for policy reasons.", "quantifier": "every generator, all integer arguments, every random stream", "why_tests_cant": "boundary conditions over the whole integer argument space", "anchors": ["password/generate.go:Generator.Generate"]}
{"id": "C05", "title": "Every conforming password can be generated", "statement": "For the default alphabets (indeed any ASCII disjoint alphabets) every string that satisfies the requested composition (and has no repeats if repeats are forbidden) is the output of Generate for some random stream.", "quantifier": "every conforming target string of every length", "why_tests_cant": "existence over all targets and streams; exclusion of part of the space is invisible to sampling", "anchors": ["password/generate.go:Generator.Generate"]}
{"id": "C06", "title": "All conforming passwords are equally likely", "statement": "Counting the sequences of accepted uniform draws that lead Generate to a given password, any two conforming passwords for the same request have the same count; hence the output distribution is uniform.", "quantifier": "every request and every pair of conforming passwords", "why_tests_cant": "a statistical test can only reject gross bias", "anchors": ["password/generate.go:Generator.Generate", "password/generate.go:randomInsert"]}
{"id": "C07", "title": "Random index selection is unbiased", "statement": "One attempt of the rejection sampler behind the random picks maps exactly the same number of input byte blocks to each index below the bound, and never returns an index outside the bound.", "quantifier": "every bound >= 1 and every index below it", "why_tests_cant": "needs counting over all byte blocks for all bounds", "anchors": ["password/generate.go:randomElement", "password/generate.go:randomInsert"]}
{"id": "C08", "title": "Generate rejects negative counts", "statement": "Generate never returns a password whose length differs from the requested length, for any integer arguments (negative digit or symbol counts are rejected).", "quantifier": "all integer arguments", "why_tests_cant": "tests use sensible arguments", "anchors": ["password/generate.go:Generator.Generate"]}
{"id": "C09", "title": "Generate terminates whenever the alphabets allow it", "statement": "For alphabets without duplicate or shared characters an accepted request ends with probability one: the probability that Generate has not finished when f tries are allowed for each character is at most length*r^f for an r below 1 that does not depend on f. If alphabets share characters, an accepted request may never end, whatever the random numbers are.", "quantifier": "every accepted request and every number of tries", "why_tests_cant": "liveness over infinite random streams", "anchors": ["password/generate.go:Generator.Generate"]}
{"id": "C10", "title": "generate --form follows the form", "statement": "For every form string the command never crashes, and its output is obtained position by position: 'x' gives a lower-case letter, 'X' an upper-case letter, 'n' a digit, 's' a symbol, the separators - _ / \\ # are copied, unknown characters are dropped.", "quantifier": "every form string, every random stream", "why_tests_cant": "all forms times all random passwords", "anchors": ["cmds/generate.go:GenerateCmd.Run"]}
{"id": "C11", "title": "generate --form 'a' gives a letter or digit", "statement": "In a form, every position marked 'a' is filled by a letter or a digit.", "quantifier": "every form string, every random stream", "why_tests_cant": "shows only for particular random passwords", "anchors": ["cmds/generate.go:GenerateCmd.Run"]}
{"id": "C12", "title": "Decrypt64 inverts Encrypt64", "statement": "For each of the three state sizes, decrypting an encrypted block with the same key and tweak gives the original block, and encrypting a decrypted block gives the ciphertext back.", "quantifier": "every key, tweak and block", "why_tests_cant": "2^256 and more keys and blocks", "anchors": ["crypter/crypter256.go:threefish256.encrypt/decrypt", "crypter/crypter512.go:threefish512.encrypt/decrypt", "crypter/crypter1024.go:threefish1024.encrypt/decrypt"]}
{"id": "C13", "title": "Encryption is Threefish", "statement": "Encrypt64 computes the Threefish function as published (MIX rounds, word permutation, rotation constants, subkey schedule with parity word and tweak) for 256, 512 and 1024 bit blocks.", "quantifier": "every key, tweak and block", "why_tests_cant": "thousands of unrolled statements; a few test vectors cannot tell a rarely used wrong subkey", "anchors": ["crypter/crypter256.go:threefish256.encrypt/decrypt", "crypter/crypter512.go:threefish512.encrypt/decrypt", "crypter/crypter1024.go:threefish1024.encrypt/decrypt"]}
{"id": "C14", "title": "Byte API round trip, in place or not", "statement": "For a cipher made by New or NewSize, Decrypt of an Encrypt-ed block of BlockSize bytes restores it, whether or not dst and src are the same memory.", "quantifier": "every key, tweak, block, destination content", "why_tests_cant": "all inputs", "anchors": ["crypter/crypter.go:Cipher.Encrypt", "crypter/crypter.go:Cipher.Decrypt"]}
{"id": "C15", "title": "Cipher results depend only on key, tweak and block", "statement": "Whatever sequence of Encrypt, Decrypt, Encrypt64, Decrypt64, SetKey, SetTweak calls was made before, the next result is the one a fresh cipher with the current key and tweak gives; internal scratch buffers never leak into results (ciphers made by New or NewSize).", "quantifier": "every operation history", "why_tests_cant": "histories are unbounded", "anchors": ["crypter/crypter.go:Cipher", "crypter/crypter.go:setKey", "crypter/crypter.go:setTweak"]}
{"id": "C16", "title": "New64 gives a usable block cipher", "statement": "A cipher made by New64 reports the block size of its key and its byte-level Encrypt/Decrypt transform whole blocks just like one made by New with the same key.", "quantifier": "every key of 4, 8 or 16 words, every block", "why_tests_cant": "all keys and blocks", "anchors": ["crypter/crypter.go:New64", "crypter/crypter.go:Cipher.BlockSize"]}
{"id": "C17", "title": "Key sizes accepted", "statement": "New succeeds exactly for keys of 32, 64 or 128 bytes, New64 exactly for 4, 8 or 16 words, NewSize exactly for 256, 512 or 1024; otherwise a KeySizeError carrying the given size is returned; NewSize is New with an all-zero key and tweak.", "quantifier": "every key length, every size", "why_tests_cant": "all lengths", "anchors": ["crypter/crypter.go:New", "crypter/crypter.go:New64", "crypter/crypter.go:NewSize"]}
{"id": "C18", "title": "Encryption permutes blocks", "statement": "For a fixed key and tweak, distinct plaintext blocks have distinct ciphertexts and every block is a ciphertext.", "quantifier": "every key, tweak, pair of blocks", "why_tests_cant": "injectivity over 2^256 blocks", "anchors": ["crypter/crypter256.go:threefish256.encrypt/decrypt", "crypter/crypter512.go:threefish512.encrypt/decrypt", "crypter/crypter1024.go:threefish1024.encrypt/decrypt"]}
{"id": "C19", "title": "Cryptor decrypts what it encrypts", "statement": "For a Cryptor built from a key text of supported length, Decrypt(Encrypt(text)) = text for every text of block length.", "quantifier": "every key and text", "why_tests_cant": "all texts", "anchors": ["crypter/cmd/crypt.go:Cryptor.Encrypt", "crypter/cmd/crypt.go:Cryptor.Decrypt"]}
{"id": "C20", "title": "GF(256) arithmetic is a field", "statement": "Add, Mul and Inv of the QR field satisfy all field laws: associativity, commutativity, distributivity, identities, x*Inv(x)=1 for x!=0, Inv(0)=0.", "quantifier": "all bytes (triples)", "why_tests_cant": "16 million triples are not enumerated by the test suite, and the law must hold for the table actually built", "anchors": ["qrterminal/qrcode/gf256/gf256.go:Field.Mul", "qrterminal/qrcode/gf256/gf256.go:Field.Inv", "qrterminal/qrcode/gf256/gf256.go:NewField"]}
{"id": "C21", "title": "Mul is polynomial multiplication, Exp/Log are inverse", "statement": "Field.Mul(x,y) is the carry-less product of x and y reduced modulo the field polynomial; Exp(Log x)=x for x!=0, Log(Exp e)=e mod 255, Exp of a negative is 0, Exp(a+b)=Exp a*Exp b, for every polynomial and generator NewField accepts.", "quantifier": "every accepted (polynomial, generator), every byte, every exponent", "why_tests_cant": "all polynomials and generators", "anchors": ["qrterminal/qrcode/gf256/gf256.go:NewField", "qrterminal/qrcode/gf256/gf256.go:mul", "qrterminal/qrcode/gf256/gf256.go:Field.Exp", "qrterminal/qrcode/gf256/gf256.go:Field.Log"]}
{"id": "C22", "title": "Check bytes make a Reed-Solomon codeword", "statement": "After ECC(data, check), the polynomial with coefficients data followed by the check bytes vanishes at Exp(0),...,Exp(c-1); the check bytes are the only c bytes with that property.", "quantifier": "every number of check bytes below 256, every data block", "why_tests_cant": "all data", "anchors": ["qrterminal/qrcode/gf256/gf256.go:RSEncoder.ECC", "qrterminal/qrcode/gf256/gf256.go:Field.gen"]}
{"id": "C23", "title": "ECC results do not depend on earlier calls", "statement": "The check bytes written by ECC depend only on data and on the encoder parameters, not on previous ECC calls (buffer reuse) nor on the previous content of check.", "quantifier": "every history of ECC calls", "why_tests_cant": "unbounded histories", "anchors": ["qrterminal/qrcode/gf256/gf256.go:RSEncoder.ECC"]}
{"id": "C24", "title": "Corrupted blocks can be told apart", "statement": "Two distinct data blocks of equal length with their check bytes (total length at most 255) differ in at least c+1 positions, so any floor(c/2) byte errors are correctable.", "quantifier": "every pair of data blocks", "why_tests_cant": "pairs of blocks", "anchors": ["qrterminal/qrcode/gf256/gf256.go:RSEncoder.ECC"]}
{"id": "C25", "title": "Bits.Write appends exactly the low bits", "statement": "Write(v,n) with v<2^n appends the n-bit big-endian representation of v to the bit string and leaves earlier bits untouched, at any alignment.", "quantifier": "every bit buffer state, v, n", "why_tests_cant": "all alignments and values", "anchors": ["qrterminal/qrcode/coding/qr.go:Bits.Write"]}
{"id": "C26", "title": "Announced and written lengths agree", "statement": "For a text accepted by its Check, the number of bits Encode writes equals Bits(v) for Num, Alpha and String, whenever the length field fits.", "quantifier": "every text and version", "why_tests_cant": "all lengths", "anchors": ["qrterminal/qrcode/coding/qr.go:Num.Bits", "qrterminal/qrcode/coding/qr.go:Alpha.Bits", "qrterminal/qrcode/coding/qr.go:String.Bits"]}
{"id": "C27", "title": "Data segments decode to the text", "statement": "A QR segment decoder written from the standard, run on the bits written by Num/Alpha/String.Encode, returns the original text.", "quantifier": "every accepted text, every version", "why_tests_cant": "all texts", "anchors": ["qrterminal/qrcode/coding/qr.go:Num.Encode", "qrterminal/qrcode/coding/qr.go:Alpha.Encode", "qrterminal/qrcode/coding/qr.go:String.Encode"]}
{"id": "C28", "title": "Padding and check bytes fill the symbol exactly", "statement": "For every version 1..40 and level, a bit string that fits is padded to exactly the data capacity with the 0xEC/0x11 pattern, check bytes are added per block, none of the internal panics fires and the total is the version's codeword count; the data prefix is preserved.", "quantifier": "every version, level and fitting bit string", "why_tests_cant": "40*4 configurations times all data", "anchors": ["qrterminal/qrcode/coding/qr.go:Bits.Pad", "qrterminal/qrcode/coding/qr.go:Bits.AddCheckBytes"]}
{"id": "C29", "title": "Encode picks the smallest version that fits", "statement": "qr.Encode uses the smallest version whose data capacity at the level holds the text, and fails exactly if version 40 cannot hold it; an all-digit text is encoded numerically, else alphanumerically if possible, else as bytes.", "quantifier": "every text and level", "why_tests_cant": "all lengths", "anchors": ["qrterminal/qrcode/qr.go:Encode"]}
{"id": "C30", "title": "Every codeword bit has exactly one pixel", "statement": "For every version, level and mask NewPlan does not panic and the map from data/check pixels to bit offsets is a bijection onto the symbol's codeword bits.", "quantifier": "every version 1..40, level, mask", "why_tests_cant": "whole-plan combinatorics, 31329 pixels in the largest symbol", "anchors": ["qrterminal/qrcode/coding/qr.go:NewPlan", "qrterminal/qrcode/coding/qr.go:lplan", "qrterminal/qrcode/coding/qr.go:vplan"]}
{"id": "C31", "title": "The symbol decodes to the text", "statement": "If qr.Encode returns a code, a reader that removes the mask, reads the codeword bits off the pixels in the standard order, de-interleaves blocks and decodes the segment obtains the text.", "quantifier": "every text and level for which Encode succeeds", "why_tests_cant": "all texts", "anchors": ["qrterminal/qrcode/qr.go:Encode", "qrterminal/qrcode/coding/qr.go:Plan.Encode"]}
{"id": "C32", "title": "Format information is a valid code word", "statement": "For every level and mask both copies of the 15 format bits in the plan are the BCH(15,5) code word of (level,mask) XORed with the standard mask.", "quantifier": "every level, mask, version", "why_tests_cant": "all combinations", "anchors": ["qrterminal/qrcode/coding/qr.go:fplan"]}
{"id": "C33", "title": "Full-block rendering shows the code in its quiet zone", "statement": "The full-block output consists of size+2q lines of size+2q cells, cell (i,j) being the black cell iff pixel (j-q,i-q) of the code is black, everything else white (q the quiet zone, at least 1).", "quantifier": "every code, every quiet zone, every cell string", "why_tests_cant": "all sizes and codes", "anchors": ["qrterminal/qrterminal.go:Config.writeFullBlocks"]}
{"id": "C34", "title": "Half-block rendering shows the code in its quiet zone", "statement": "Reading the half-block output as pairs of vertical pixels gives the code surrounded by q white pixels on each side (plus at most one dark filler row at an edge).", "quantifier": "every code of odd size, every quiet zone", "why_tests_cant": "all sizes and codes", "anchors": ["qrterminal/qrterminal.go:Config.writeHalfBlocks"]}
{"id": "C35", "title": "Generate never crashes on long text", "statement": "qrterminal.Generate produces a code or reports an error for every text.", "quantifier": "every text", "why_tests_cant": "only very long texts fail", "anchors": ["qrterminal/qrterminal.go:GenerateWithConfig"]}
{"id": "C36", "title": "Scores do not depend on goroutine scheduling", "statement": "For every interleaving of the worker goroutines and every map iteration order, match returns the same score map, and it equals the sequential sum over the query substrings; every schedule terminates.", "quantifier": "every schedule, every number of workers >= 1", "why_tests_cant": "schedules cannot be enumerated by tests", "anchors": ["closestmatch/closestmatch.go:ClosestMatch.match", "closestmatch/closestmatch.go:ClosestMatch.worker"]}
{"id": "C37", "title": "Closest returns a best match", "statement": "Closest returns a key of maximal score, ClosestN the first n keys of a list sorted by descending score with no key twice and containing all candidates when n is large enough.", "quantifier": "every word list, query, n >= 0, every tie-breaking order", "why_tests_cant": "all word lists", "anchors": ["closestmatch/closestmatch.go:ClosestMatch.Closest", "closestmatch/closestmatch.go:ClosestMatch.ClosestN", "closestmatch/closestmatch.go:rankByWordCount"]}
{"id": "C38", "title": "Matches share a fragment with the query", "statement": "A key is returned iff it is one of the indexed words and shares at least one fragment with the query; Closest returns the empty string only if no indexed word shares a fragment.", "quantifier": "every word list and query", "why_tests_cant": "all word lists", "anchors": ["closestmatch/closestmatch.go:ClosestMatch.match", "closestmatch/closestmatch.go:ClosestMatch.splitWord"]}
{"id": "C39", "title": "An exact query finds its entry", "statement": "Querying an indexed lower-case word returns that word.", "quantifier": "every word list and indexed word", "why_tests_cant": "shows only for special word lists", "anchors": ["closestmatch/closestmatch.go:ClosestMatch.Closest"]}
{"id": "C40", "title": "Add keeps earlier words", "statement": "After Add, every word indexed before is still found and has its own identity.", "quantifier": "every sequence of Add calls", "why_tests_cant": "histories", "anchors": ["closestmatch/closestmatch.go:ClosestMatch.Add"]}
{"id": "C41", "title": "Search never crashes", "statement": "Closest and ClosestN return for every word list and every query.", "quantifier": "every word list, query, n", "why_tests_cant": "rare inputs (empty word, negative or huge n)", "anchors": ["closestmatch/closestmatch.go:ClosestMatch.worker", "closestmatch/closestmatch.go:ClosestMatch.ClosestN"]}
{"id": "C42", "title": "Search is case-insensitive", "statement": "A query differing from another only in letter case has the same result.", "quantifier": "every word list, every pair of queries", "why_tests_cant": "all queries", "anchors": ["closestmatch/closestmatch.go:ClosestMatch.match"]}
{"id": "C43", "title": "Scan lists exactly the entries", "statement": "For a clean root path, Scan lists under each of the six categories exactly the files directly inside that top-level directory, except .DS_Store, each once, in name order, with path category/name; no other file is listed.", "quantifier": "every directory tree", "why_tests_cant": "all trees", "anchors": ["repo/repo.go:Repo.Scan"]}
{"id": "C44", "title": "Scan ignores .git", "statement": "No file below a directory named .git is ever listed, and adding or removing such directories does not change the result.", "quantifier": "every directory tree", "why_tests_cant": "all trees", "anchors": ["repo/repo.go:Repo.Scan"]}
{"id": "C45", "title": "Scan does not depend on a trailing slash of Root", "statement": "Writing the root with or without trailing slash gives the same entries.", "quantifier": "every tree", "why_tests_cant": "all trees", "anchors": ["repo/repo.go:Repo.Scan"]}
{"id": "C46", "title": "SearchInFile reports exactly the matching lines", "statement": "For a text file, SearchInFile returns, in order, exactly the lines for which the predicate holds, with their 1-based numbers and text (line terminators \\n or \\r\\n removed).", "quantifier": "every file content, every predicate", "why_tests_cant": "all contents; long lines", "anchors": ["repo/repo.go:SearchInFile", "repo/repo.go:GetFileContentByLine"]}
{"id": "C47", "title": "Binary files give no matches", "statement": "If the first line contains a NUL byte no line is delivered.", "quantifier": "every file content", "why_tests_cant": "all contents", "anchors": ["repo/repo.go:GetFileContentByLine"]}
{"id": "C48", "title": "Repository search finds the matching entries", "statement": "GlobSearch, DirectSearch and GrepSearch report, for each listed file, exactly its matching lines.", "quantifier": "every repository, query", "why_tests_cant": "all repositories and working directories", "anchors": ["repo/repo.go:Repo.DirectSearch", "repo/repo.go:Repo.GlobSearch", "repo/repo.go:Repo.GrepSearch"]}
{"id": "C49", "title": "setenv exports the first line under the given names", "statement": "For each selected entry and each later line 'env: NAME', the variable NAME upper-cased is set to the first line; nothing else is exported.", "quantifier": "every repository and file content", "why_tests_cant": "all contents", "anchors": ["cmds/setenv.go:SetEnvCmd.Run"]}
{"id": "C50", "title": "show prints the requested lines", "statement": "show prints the name of an entry that best matches the argument and then all lines, or all lines numbered, or only line i, of what is read of it, in order: the lines before the first line of 65536 or more bytes; of an entry with a NUL byte in its first line only a message is printed.", "quantifier": "every store, every content of the entries and every option combination", "why_tests_cant": "all contents", "anchors": ["cmds/show.go:ShowCmd.Run"]}
{"id": "C51", "title": "show --qrcode never crashes on short lines", "statement": "The text selected for the QR code is the requested line or field without its field name; extraction never crashes.", "quantifier": "every content, line number, field", "why_tests_cant": "rare option/content combinations", "anchors": ["cmds/show.go:ShowCmd.Run"]}
{"id": "C52", "title": "An inserted entry can be shown and stays inside the store", "statement": "After insert of a file under a category path the entry is listed with that content, other entries are unchanged, and insert never writes outside the store.", "quantifier": "every store, name and content", "why_tests_cant": "all names", "anchors": ["cmds/insert.go:InsertCmd.Run"]}
{"id": "C53", "title": "runes.Index finds the first occurrence", "statement": "Index(s,n) is the least position where n occurs in s, or -1 if there is none; Contains, IndexRune, IndexAny, HasPrefix, HasSuffix, Equal agree with their definitions.", "quantifier": "all rune slices", "why_tests_cant": "all slices", "anchors": ["glob/util/runes/runes.go:Index"]}
{"id": "C54", "title": "runes.LastIndex finds the last occurrence", "statement": "LastIndex(s,n) is the greatest position where n occurs in s, or -1 if there is none.", "quantifier": "all rune slices", "why_tests_cant": "all slices", "anchors": ["glob/util/runes/runes.go:LastIndex"]}
{"id": "C55", "title": "Glob compilation is total", "statement": "Lexing, parsing and compiling end for every pattern, with a matcher or an error, without a crash.", "quantifier": "every byte string", "why_tests_cant": "all byte strings", "anchors": ["glob/syntax/lexer/lexer.go:lexer.Next", "glob/syntax/ast/parser.go:Parse", "glob/compiler/compiler.go:Compile"]}
{"id": "C56", "title": "A quoted text matches only itself", "statement": "For every valid UTF-8 text without U+0000 and U+FFFD, Compile(QuoteMeta(s)) succeeds for any separators and matches t iff t = s. For an ASCII text with U+0000 it matches exactly the text without U+0000, up to the first U+0000 that is at the start or after another one.", "quantifier": "every text s, subject t, separator list", "why_tests_cant": "all texts", "anchors": ["glob/glob.go:QuoteMeta", "glob/glob.go:Compile"]}
{"id": "C57", "title": "Globs match their documented language", "statement": "For every pattern, Compile(pattern, seps).Match(s) holds iff s is in the documented language of the pattern.", "quantifier": "every pattern, separator list, subject", "why_tests_cant": "languages are infinite", "anchors": ["glob/glob.go:Compile", "glob/match/*.go", "glob/compiler/compiler.go"]}
{"id": "C58", "title": "A single wildcard needs one character", "statement": "The pattern ? and the class [!...] match no empty string.", "quantifier": "every separator list", "why_tests_cant": "boundary case", "anchors": ["glob/match/single.go:Single.Match", "glob/match/list.go:List.Match"]}
{"id": "C59", "title": "Text*Text matches only disjoint prefix and suffix", "statement": "A pattern p*s without separators matches exactly the strings that start with p, end with s and are at least as long as p and s together.", "quantifier": "every p, s, subject", "why_tests_cant": "overlap appears only for special subjects", "anchors": ["glob/match/prefix_suffix.go:PrefixSuffix.Match"]}
{"id": "C60", "title": "Segment buffers are always available", "statement": "Acquiring a segment buffer of any non-negative size never crashes: the pool index is in range and its pool is initialised; merged segment lists are sorted and duplicate-free unions.", "quantifier": "every size, every pair of sorted segment lists", "why_tests_cant": "all sizes", "anchors": ["glob/match/segments.go:acquireSegments", "glob/match/match.go:appendMerge"]}
{"id": "C61", "title": "Clipboard becomes available when a tool is installed", "statement": "On Unix, if one of the supported tools is on the path, Write hands the text to it.", "quantifier": "every environment", "why_tests_cant": "all environments", "anchors": ["clipboard/clipboard_unix.go:init"]}
{"id": "C62", "title": "generate --unique prints no repeated character", "statement": "With --unique the printed password (with or without a form) contains no character twice (separators of the form aside).", "quantifier": "every form, every random stream", "why_tests_cant": "a repeat shows only on particular random passwords and forms", "anchors": ["cmds/generate.go:GenerateCmd.Run"]}
{"id": "C63", "title": "Cryptor ciphertext is recoverable", "statement": "The text Cryptor.Encrypt returns for a text of block length can be decrypted: base64-decoding it and calling the cipher's Decrypt on it in place gives the text back.", "quantifier": "every key text of 32, 64 or 128 bytes, every text of that length", "why_tests_cant": "all texts and keys", "anchors": ["crypter/cmd/crypt.go:Cryptor.Encrypt", "crypter/crypter.go:Cipher.Decrypt"]}
{"id": "C64", "title": "NewField accepts exactly the primitive setups", "statement": "NewField(poly, a) returns a field if and only if poly is an irreducible polynomial of degree 8 over GF(2) and a is a byte generating the multiplicative group of residues; otherwise it panics.", "quantifier": "all non-negative polynomials and generators", "why_tests_cant": "The set of arguments is unbounded; tests try a few.", "anchors": ["qrterminal/qrcode/gf256/gf256.go:NewField", "qrterminal/qrcode/gf256/gf256.go:reducible"]}
{"id": "C65", "title": "Version information is a valid code word", "statement": "From version 7 on, both version information areas of every symbol hold the same 18 bits: the BCH(18,6) code word of the version number.", "quantifier": "all versions 7..40, levels, masks and texts", "why_tests_cant": "34 versions x levels x masks x all texts; a single wrong table entry breaks one version only", "anchors": ["qrterminal/qrcode/coding/qr.go:vplan", "qrterminal/qrcode/coding/qr.go:vtab"]}
{"id": "C66", "title": "Function patterns are where the standard puts them", "statement": "In every symbol the finder patterns, separators, timing patterns, alignment patterns and the dark module are exactly those of the standard for its version, whatever the text.", "quantifier": "all versions, levels, masks and texts", "why_tests_cant": "the patterns depend on tables per version and must not be overwritten by any data", "anchors": ["qrterminal/qrcode/coding/qr.go:vplan", "qrterminal/qrcode/coding/qr.go:posBox", "qrterminal/qrcode/coding/qr.go:alignBox"]}
{"id": "C67", "title": "A damaged symbol determines its data", "statement": "If in each block of a symbol at most half as many code words are wrong as the block has check words, the data is determined by the damaged symbol.", "quantifier": "all symbols and all damage patterns within the bound", "why_tests_cant": "exponentially many damage patterns", "anchors": ["qrterminal/qrcode/coding/qr.go:AddCheckBytes", "qrterminal/qrcode/gf256/gf256.go:ECC"]}
{"id": "C68", "title": "Image shows the scaled code", "statement": "The image of a code shows every module as a square of Scale pixels in a quiet zone of four modules, as its Bounds promise.", "quantifier": "all codes and all pixel coordinates", "why_tests_cant": "all symbols and coordinates", "anchors": ["qrterminal/qrcode/qr.go:Image", "qrterminal/qrcode/qr.go:codeImage.At", "qrterminal/qrcode/qr.go:codeImage.Bounds"]}
{"id": "C69", "title": "A saved index is loaded unchanged", "statement": "Load of a file written by Save gives an index with the same words, fragments and identifiers, so that every search has the same result.", "quantifier": "every word list and every list of fragment sizes", "why_tests_cant": "all word lists, including words with non-ASCII letters whose fragments split a character", "anchors": ["closestmatch/closestmatch.go:ClosestMatch.Save", "closestmatch/closestmatch.go:Load"]}
{"id": "C70", "title": "A search leaves no goroutine behind", "statement": "When Closest or ClosestN has returned and nothing more can run, all the worker goroutines it started have ended; no schedule blocks.", "quantifier": "every schedule, every word list and query", "why_tests_cant": "a leaked or blocked goroutine shows only under some schedules", "anchors": ["closestmatch/closestmatch.go:ClosestMatch.match", "closestmatch/closestmatch.go:ClosestMatch.worker"]}
{"id": "C71", "title": "Scan never crashes", "statement": "Scan ends for every root and tree with the list of entries or an error, without a crash.", "quantifier": "every root path and file tree", "why_tests_cant": "all trees and roots", "anchors": ["repo/repo.go:Repo.Scan"]}
{"id": "C72", "title": "grep prints exactly the matching lines", "statement": "gpw grep prints, for every entry with a matching line among those that are read (the lines before the first line of 65536 or more bytes; none of a binary entry), its name and exactly the matching lines with their line numbers; entries without a matching line are not mentioned.", "quantifier": "every store, pattern predicate and entry content (text or binary, lines of any length)", "why_tests_cant": "all stores and contents", "anchors": ["cmds/grep.go:GrepCmd.Run", "repo/repo.go:SearchInFile"]}
{"id": "C73", "title": "search prints the best entries", "statement": "gpw search prints the best-scoring entries, best first, at most as many as asked for; with a content filter it prints the lines of those entries that contain the text; it never crashes.", "quantifier": "every store, query, number of results and content filter", "why_tests_cant": "all stores and queries", "anchors": ["cmds/search.go:SearchCmd.Run"]}
{"id": "C74", "title": "list prints every entry once", "statement": "gpw list prints each entry of the store exactly once; with a sub folder it prints exactly the entries of a best-matching category in name order.", "quantifier": "every store and sub folder", "why_tests_cant": "all stores", "anchors": ["cmds/list.go:ListCmd.Run"]}
{"id": "C75", "title": "Patterns written as documented are read as documented", "statement": "Parsing a pattern that is written in the documented syntax (characters, escapes, *, **, ?, classes, nested braces) succeeds and gives exactly the terms that were written.", "quantifier": "every sequence of terms, nested to any depth", "why_tests_cant": "the grammar is infinite", "anchors": ["glob/glob.go:Compile", "glob/syntax/lexer/lexer.go:lexer.Next", "glob/syntax/ast/parser.go:Parse"]}
{"id": "C76", "title": "GetFileContentByLine and SearchInFile on every file", "statement": "For every file content the callback receives, in order and numbered from 1, exactly the lines before the first line of 65536 or more bytes (terminators removed), until it returns an error; a file with a NUL byte in its first line delivers nothing and gives an error; SearchInFile returns exactly the delivered lines for which the predicate holds.", "quantifier": "every file content, callback and predicate", "why_tests_cant": "all contents including over-long lines, NUL bytes and mixed terminators", "anchors": ["repo/repo.go:GetFileContentByLine", "repo/repo.go:SearchInFile"]}
{"id": "C77", "title": "Store searches read the listed path relative to the working directory", "statement": "DirectSearch, GlobSearch and GrepSearch give one result per listed file, in a group order of the map, and each result holds exactly the matching lines of the file that the listed path (category/name) denotes in the current working directory, none if there is no such file.", "quantifier": "every file tree, working directory, scanned file list and predicate", "why_tests_cant": "all trees, working directories and contents", "anchors": ["repo/repo.go:DirectSearch", "repo/repo.go:GlobSearch", "repo/repo.go:GrepSearch"]}
{"id": "C78", "title": "show --qrcode draws exactly this text", "statement": "show --qrcode draws the text of the last line selected by number or field, without as many leading bytes as the field name has, trimmed, and cut up to its first colon; it crashes exactly if that line is non-empty and shorter than the field name; if no (or an empty) line is selected it draws all lines with ' / ' before each, and nothing if no line is read.", "quantifier": "every store, entry content and option combination", "why_tests_cant": "all contents and options", "anchors": ["cmds/show.go:ShowCmd.Run"]}
{"id": "C79", "title": "search prints exactly the first best entries", "statement": "gpw search crashes exactly if the number of results is negative or more than 2^44 (so many strings do not fit into the address space); otherwise it prints the first of a list of exactly the entries that share a fragment with the text, sorted by descending score; with a content it prints of those exactly the lines read that contain it.", "quantifier": "every store, entry content, search text and number", "why_tests_cant": "all stores, map orders, schedules and contents", "anchors": ["cmds/search.go:SearchCmd.Run"]}
{"id": "C80", "title": "setenv exports exactly this", "statement": "gpw setenv goes through the selected entries (the named one, or all in some order), exports for each line 'env: NAME' after the first one NAME upper-cased with the first line as value, stops at the first binary entry, and reports an error exactly if a selected entry is binary.", "quantifier": "every store and entry content", "why_tests_cant": "all stores, map orders and contents", "anchors": ["cmds/setenv.go:SetEnvCmd.Run"]}
{"id": "C81", "title": "Scan for every way to write the root", "statement": "For every root that is a directory not named .git, Scan lists under each category exactly the files outside .git, .DS_Store aside, whose walked path (cleaned root, slash, names) lies in that category once len(root)+1 bytes are cut off; it crashes exactly if the root is a file or some such file has a walked path of at most len(root) bytes.", "quantifier": "every tree, working directory and spelling of the root (relative, ., ./x, //, trailing slashes, ..)", "why_tests_cant": "all trees and spellings", "anchors": ["repo/repo.go:Scan"]}
{"id": "C82", "title": "Scan with a slash at the end of the root", "statement": "Writing the root with a slash at its end, Scan does not crash and lists, instead of the entries of the store, exactly the files of directories whose name is a category with one byte before it (and of category directories inside directories whose name is one byte and a dot).", "quantifier": "every tree and clean root", "why_tests_cant": "all trees", "anchors": ["repo/repo.go:Scan"]}
{"id": "C83", "title": "Windows Write releases everything it takes", "statement": "Whatever the system calls return, Write on Windows uses the clipboard and memory only while it holds them, and when it returns it has closed the clipboard if it opened it and freed or handed over its memory exactly once.", "quantifier": "every sequence of results of the system calls, every text", "why_tests_cant": "the failing call and the combination of results cannot be enumerated on a real system", "anchors": ["clipboard/clipboard_windows.go:write", "clipboard/clipboard_windows.go:waitOpenClipboard"]}
{"id": "C84", "title": "Windows Write reports success exactly if the text is on the clipboard", "statement": "Write on Windows returns no error exactly if the text was handed to the clipboard and the clipboard was closed; what is handed over is memory of the size of the UTF-16 text, into which that text was copied.", "quantifier": "every sequence of results of the system calls, every text", "why_tests_cant": "all failures of all calls", "anchors": ["clipboard/clipboard_windows.go:write"]}
{"id": "C85", "title": "Windows Write crashes exactly for a text with a NUL", "statement": "Write on Windows crashes exactly if the text contains a zero byte and the clipboard could be emptied; the clipboard then stays open and its old content is lost.", "quantifier": "every sequence of results of the system calls, every text", "why_tests_cant": "all texts and failures", "anchors": ["clipboard/clipboard_windows.go:write"]}
{"id": "C86", "title": "Windows Read keeps the rules and returns what is there", "statement": "Whatever the system calls return, Read on Windows does not crash and releases what it took; it succeeds exactly if every call returned a non-zero value, and then returns the text that stood in the clipboard's memory while it was locked.", "quantifier": "every sequence of results of the system calls, every content of memory", "why_tests_cant": "all failures of all calls", "anchors": ["clipboard/clipboard_windows.go:read"]}
{"id": "C87", "title": "Windows clipboard round trip", "statement": "For a valid UTF-8 text without a zero byte whose UTF-16 form has at most 2^20 units with its end mark, what Write copies into memory is read by Read as the same text, whatever follows it in memory.", "quantifier": "every text", "why_tests_cant": "all texts", "anchors": ["clipboard/clipboard_windows.go:read", "clipboard/clipboard_windows.go:write"]}
{"id": "C88", "title": "Unix and darwin Write report what happened to the copy command", "statement": "Whatever fails, the steps of handing a text to the copy command are made in order up to the first failure; Write reports that failure, and success exactly if the command was started, was given the whole text and its end, and exited with success. On darwin the commands are pbcopy and pbpaste.", "quantifier": "every sequence of failures, every text and command", "why_tests_cant": "all failures at all steps", "anchors": ["clipboard/clipboard_unix.go:write", "clipboard/clipboard_darwin.go:write", "clipboard/clipboard_darwin.go:read"]}
{"id": "C89", "title": "A started copy command is waited for", "statement": "If Write started the copy command it waits for its end before it returns.", "quantifier": "every sequence of failures, every text and command", "why_tests_cant": "all failures at all steps", "anchors": ["clipboard/clipboard_unix.go:write", "clipboard/clipboard_darwin.go:write"]}
{"id": "C90", "title": "Unclosed braces end with the pattern", "statement": "A pattern in which braces are still open at the end, to any depth, means the same as with the missing closing braces appended.", "quantifier": "every sequence of terms, nested to any depth", "why_tests_cant": "the grammar is infinite", "anchors": ["glob/syntax/ast/parser.go:Parse", "glob/syntax/lexer/lexer.go:lexer.Next"]}
{"id": "C91", "title": "Patterns of literals and stars match their documented language for any bytes", "statement": "For every pattern made of literal characters (escaped or not, any Unicode), * and ** in which no star stands next to a star, and every separator list: Compile succeeds and Match(s) never panics and is true iff s, read as runes (invalid bytes read as U+FFFD), is in the documented language. The only exception is p**q (or p*q without separators) where an end of p is a start of q: it matches iff s starts with p and ends with q, overlapping or not.", "quantifier": "every such pattern, separator list and byte string, valid UTF-8 or not", "why_tests_cant": "patterns, subjects and separators are unbounded; tests only sample them", "anchors": ["glob/glob.go:Compile", "glob/compiler/compiler.go", "glob/match/btree.go", "glob/match/any.go", "glob/match/prefix_suffix.go", "glob/util/strings/strings.go"]}
{"id": "C92", "title": "Concurrent glob matching", "statement": "Any number of goroutines may call Match of the same or different compiled globs at the same time, any number of times. Each call gives the result it gives when nothing else runs, and panics only if it does so then; the memory of one call, which comes from pools that all calls share, is never read or written by another call while it is in use (no data race), the slices that all calls share are never changed, and no call waits for another.", "quantifier": "all sets of goroutines, all lists of globs and strings for each, all interleavings of their steps, all behaviours of the pools (which may keep, give back or drop a slice)", "why_tests_cant": "Tests sample few schedules; a buffer that is given back too early or shared shows up only in rare interleavings.", "anchors": ["glob/match/segments.go:acquireSegments", "glob/match/segments.go:releaseSegments", "glob/match/btree.go:BTree.Match", "glob/match/any_of.go:AnyOf.Index", "glob/match/every_of.go:EveryOf.Index", "glob/match/match.go:appendMerge"]}
{"id": "C93", "title": "Matching a compiled glob never crashes", "statement": "Once Compile has accepted a pattern, Match of the glob returns true or false for every string; it neither panics nor runs forever. (The code breaks this for some patterns with braces: {a*,a} on a, a{} on a; and with separators outside ASCII.)", "quantifier": "all patterns that Compile accepts, all separators, all strings of any bytes", "why_tests_cant": "A search over many patterns and strings finds some crashes but cannot show that a class of patterns has none; patterns and strings are unbounded.", "anchors": ["glob/match/row.go", "glob/match/any_of.go:Len", "glob/match/suffix_any.go", "glob/util/runes/runes.go", "glob/compiler/compiler.go", "glob/glob.go"]}
{"id": "C94", "title": "What a search finds after any history of New and Add, and when it crashes", "statement": "After New(words0, sizes) with sizes that are not negative and any sequence of calls Add(words1), Add(words2), ...: every list is numbered from 0; a number stands for the word the last list with that number gives it but stays entered under the fragments of all words it ever stood for. A search for q crashes (for some schedule) exactly if a number entered under a fragment of q stands for the empty word, and then under no schedule returns. Otherwise the possible results of Closest(q) are exactly the best scored words found (the empty string if there is none), and the possible results of ClosestN(q, n), for n from 0 to 2^44 (for other n it panics), exactly the first n of a list of all words found, each once, sorted by falling score. With New alone a search crashes exactly if q is empty and an indexed word is empty.", "quantifier": "all word lists, histories of Add of any length, non-negative fragment sizes, queries, n, schedules of the goroutines and map iteration orders", "why_tests_cant": "Tests can only run some histories and schedules; results depend on map order and on which numbers are overwritten.", "anchors": ["closestmatch/closestmatch.go:New", "closestmatch/closestmatch.go:Add", "closestmatch/closestmatch.go:Closest", "closestmatch/closestmatch.go:ClosestN", "closestmatch/closestmatch.go:match"]}
{"id": "C95", "title": "Searches and calls of Add at the same time on one index", "statement": "Any number of goroutines may call Closest, ClosestN and Add on one ClosestMatch at the same time. While an Add changes the index no worker of any search looks into it, and never do two workers look into it at once. When a search returns, each fragment of its query has been looked up in the index of some number of completed word lists, not fewer than were complete when the search began: no Add is seen half; with no Add meanwhile the scores are those of the index, whatever other searches do. There is no deadlock, and only finitely many steps are possible until another call begins.", "quantifier": "all numbers of concurrent searches and Adds, all queries, word lists, non-negative fragment sizes, all interleavings of all goroutines, all map orders", "why_tests_cant": "A schedule that breaks mutual exclusion or deadlocks need not occur in a test; the number of interleavings is unbounded.", "anchors": ["closestmatch/closestmatch.go:Add", "closestmatch/closestmatch.go:worker", "closestmatch/closestmatch.go:match"]}
{"id": "C96", "title": "Which store the program uses, and what each command does there", "statement": "On linux and darwin `gpw list`, `show`, `search`, `grep`, `set-env` and `generate` do exactly what they document (entries listed once, best match shown, matching lines, exports) on the store at $HOME/Documents/Vault, whatever the environment, the working directory and `--root` are, and leave the file system as it was.", "quantifier": "every environment, file system, working directory, value of --root, command and its arguments, and every choice among equals (map order, ties)", "why_tests_cant": "needs the environment, any store and any file content together; a test runs one account", "anchors": ["main.go:main", "cmds/list.go:Run", "cmds/show.go:Run", "cmds/search.go:Run", "cmds/grep.go:Run", "cmds/setenv.go:Run"]}
{"id": "C97", "title": "--root chooses the store", "statement": "The commands work on the store at the path given by `--root`, with environment variables in it replaced.", "quantifier": "every system, environment, file system, root and command", "why_tests_cant": "any root with any variables and any store", "anchors": ["main.go:main", "cmds/globals.go:Globals", "cmds/list.go:Run"]}
{"id": "C98", "title": "What is inserted is found", "statement": "After `gpw insert --file F d/n` succeeds, the entry d/n is in the store: `list` prints it, `show` shows the text of F, and the other entries are as before.", "quantifier": "every system, store, file and entry name", "why_tests_cant": "any store and any following command", "anchors": ["main.go:main", "cmds/insert.go:Run", "cmds/list.go:Run"]}
{"id": "C99", "title": "The program never changes the store on linux and darwin", "statement": "On linux and darwin no sequence of runs of the program, from any working directories and with any commands, changes the entries of the store at $HOME/Documents/Vault (names given to insert without `..`, no directory on the way to the store literally called `$HOME`).", "quantifier": "every finite sequence of runs with any commands, arguments, working directories and files", "why_tests_cant": "must hold for every history of runs", "anchors": ["main.go:main", "cmds/insert.go:Run", "cmds/remove.go:Run", "cmds/rename.go:Run", "cmds/copy.go:Run"]}
{"id": "C100", "title": "insert copies the file", "statement": "If `gpw insert --file F name` reports success, the new file has the content of F and no other file changes.", "quantifier": "every system, root, file system, source and entry name", "why_tests_cant": "any source, including the target itself and a directory", "anchors": ["cmds/insert.go:Run"]}
{"id": "C101", "title": "remove, rename, copy and init change nothing", "statement": "On every system any sequence of runs of the commands other than insert leaves the whole file system as it was; remove, rename and copy always report success.", "quantifier": "every finite sequence of runs of the commands, every file system and environment", "why_tests_cant": "must hold for every history of runs", "anchors": ["cmds/remove.go:Run", "cmds/rename.go:Run", "cmds/copy.go:Run", "cmds/init.go:Run", "cmds/setenv.go:Run"]}
{"id": "C102", "title": "Glob search reports exactly the matching lines", "statement": "GlobSearch with a query that compiles returns, for every listed path, exactly the lines read of the file that are in the documented language of the query, and does not crash; searching for QuoteMeta(t) finds what DirectSearch(t) finds.", "quantifier": "every state of the disk, listing, query, separators and text", "why_tests_cant": "all disks, queries and lines", "anchors": ["repo/repo.go:Repo.GlobSearch", "repo/repo.go:SearchInFile", "glob/glob.go:Compile"]}
{"id": "C103", "title": "Accuracy measured with words", "statement": "AccuracyMutatingWords on an index made by New and Add tests only words of the index, and only if it has at least two; its queries are exactly: the word without one of its at least three parts; without one of its at least two parts, reversed; the shuffled rest with two letters replaced. It may panic exactly if the index is empty or one of these queries crashes the search (with New alone: if a word is empty and another is a single part with one space before or behind); it may return NaN exactly if the index is not empty; it may return 100*c/t exactly if c<=t, 1<=t<=200, and tests that find and do not find their word exist as needed.", "quantifier": "all histories of New and Add, all fragment sizes that are not negative, all random numbers, all orders of map iteration", "why_tests_cant": "the result depends on random draws, map order and goroutine schedules", "anchors": ["closestmatch/closestmatch.go:AccuracyMutatingWords", "closestmatch/closestmatch.go:New", "closestmatch/closestmatch.go:Add", "closestmatch/closestmatch.go:Closest"]}
{"id": "C104", "title": "Accuracy measured with letters", "statement": "AccuracyMutatingLetters on an index made by New and Add makes exactly the queries with one letter of a word replaced, removed or inserted before another letter; it counts all of its 200 trials when it returns and never returns NaN; it may return 100*c/200 exactly if tests that find and do not find their word exist as needed. For every index some draws make it panic; with an index of at most one word it always panics.", "quantifier": "all histories of New and Add, all fragment sizes that are not negative, all random numbers, all orders of map iteration", "why_tests_cant": "the result depends on random draws, map order and goroutine schedules", "anchors": ["closestmatch/closestmatch.go:AccuracyMutatingLetters", "closestmatch/closestmatch.go:New", "closestmatch/closestmatch.go:Add", "closestmatch/closestmatch.go:Closest"]}
{"id": "C105", "title": "Which clipboard commands a Unix program starts", "statement": "On a Unix system, for any sequence of settings of Unsupported and Primary and calls of Write and Read: the tool is the first available one of wl-clipboard (under Wayland), xclip, xsel, termux, clip.exe/powershell.exe at program start; no command is started while Unsupported is on (as it is at the start); otherwise Write hands exactly the text to the copy command and returns its error, Read returns the paste command's error or output (for the DOS tool without the last two bytes). From the first Write (Read) with Primary on, the arguments of the copy (paste) command stay dropped, even after Primary is cleared.", "quantifier": "all environments, all sequences of operations, all behaviours of the commands", "why_tests_cant": "package variables carry state between calls; every history matters", "anchors": ["clipboard/clipboard_unix.go:init", "clipboard/clipboard_unix.go:getPasteCommand", "clipboard/clipboard_unix.go:getCopyCommand", "clipboard/clipboard_unix.go:read", "clipboard/clipboard_unix.go:write", "clipboard/clipboard.go:Read", "clipboard/clipboard.go:Write"]}
{"id": "C106", "title": "Exactly what generate --form may print", "statement": "For every form, the texts that generate --form can print are exactly the form filled from some password that satisfies the derived request: as many characters as the form has x, X, n, s and a together, with as many digits as it has n plus a third of its a (rounded down), as many symbols as it has s, no upper case letters unless --mixed, no character twice if --unique. The k-th of all x and X becomes the k-th letter of that password in the given case, the k-th n its k-th digit, the k-th s its k-th symbol, the k-th a its k-th character; the separators - _ / \\ # stay and all else is dropped.", "quantifier": "every form, every combination of --mixed and --unique, every random stream", "why_tests_cant": "it is an equality of two sets of texts over all random streams; a test sees a few samples", "anchors": ["cmds/generate.go:GenerateCmd.Run", "password/generate.go:Generate"]}
{"id": "C107", "title": "generate --form is uniform", "statement": "For a form without a, and not both --mixed and --unique, every text the form stands for (with --unique: without a letter, digit or symbol twice, separators aside) is printed with the same positive probability and nothing else is printed; without --unique that probability is 26^-(number of x and X) * 10^-(number of n) * 30^-(number of s), as if every place was chosen independently. (With both flags a form can print a letter twice: a shown counterexample.)", "quantifier": "every form without a, every text, all random draws", "why_tests_cant": "a probability over all random draws; statistics on samples cannot establish exact equality", "anchors": ["cmds/generate.go:GenerateCmd.Run", "password/generate.go:Generate"]}
{"id": "C108", "title": "Generate with any integer counts", "statement": "Generate with negative counts of digits or symbols does, on every random stream, what Generate does with these counts set to zero and the length enlarged by what they lacked; so the passwords it can return are exactly those with max(0, numDigits) digits, max(0, numSymbols) symbols and length - numDigits - numSymbols letters of the permitted alphabet (all different if repeats are not allowed).", "quantifier": "all integer lengths and counts, all flags, all ASCII disjoint alphabets, all random streams", "why_tests_cant": "an equality over all random streams and all integers", "anchors": ["password/generate.go:Generator.Generate"]}
{"id": "C109", "title": "Byte methods of a New64 cipher, exactly", "statement": "Encrypt and Decrypt (bytes) of a cipher made by New64 with a key of n words read only the first n/8 words (none, one or two) of src, process the block of these words followed by zero words, and write the first n/8 words of the result to dst; nothing else is written, and calls made before make no difference.", "quantifier": "all keys of 4, 8 or 16 words, all tweaks, all sources and destinations (overlapping or not), all histories of calls", "why_tests_cant": "all memory contents and call histories", "anchors": ["crypter/crypter.go:New64", "crypter/crypter.go:Cipher.Encrypt", "crypter/crypter.go:Cipher.Decrypt"]}
{"id": "C110", "title": "Which texts fit a QR code", "statement": "Encode returns a code if and only if the text has at most as many characters as version 40 holds according to the standard (digits 7089/5596/3993/3057, alphanumeric 4296/3391/2420/1852, bytes 2953/2331/1663/1273 for levels L/M/Q/H), and else an error; the functions that write a picture crash exactly for the longer texts, so never for texts of at most 1273 bytes.", "quantifier": "every text, every level, every configuration", "why_tests_cant": "all texts; the boundary depends on the characters of the text", "anchors": ["qrterminal/qrcode/qr.go:Encode", "qrterminal/qrterminal.go:GenerateWithConfig"]}
{"id": "C111", "title": "Which indexes survive Save and Load", "statement": "The index loaded is equal to the index saved if and only if all its fragments and words are valid UTF-8; and an index that was loaded can be saved and loaded again without change.", "quantifier": "every index", "why_tests_cant": "all indexes and byte strings", "anchors": ["closestmatch/closestmatch.go:ClosestMatch.Save", "closestmatch/closestmatch.go:Load"]}
{"id": "C112", "title": "What a Cryptor does, exactly", "statement": "New crashes exactly for bits <= -8 or bits >= 2^51 + 8 and gives a usable Cryptor exactly for key texts of 32, 64 or 128 bytes; with any other key every call crashes. Encrypt crashes if the text is shorter than the key; otherwise it returns in base64 (RFC 4648, URL alphabet) the encryption of as many bytes as the key has, followed by a zero byte for each further byte of the text. Decrypt of a text in that base64 (line breaks in it are skipped) crashes if it decodes to fewer bytes than the key has; otherwise it returns as many zero bytes as were decoded. All this after any use of the Cryptor.", "quantifier": "every key text, every text, every history of calls", "why_tests_cant": "all texts, keys and histories", "anchors": ["crypter/cmd/crypt.go:New", "crypter/cmd/crypt.go:Cryptor.Encrypt", "crypter/cmd/crypt.go:Cryptor.Decrypt"]}
{"id": "C113", "title": "Patterns of one term, on every byte string", "statement": "A pattern that is a text, *, **, ? or a class compiles, and matches a string of any bytes if and only if the term, as documented, matches its runes, where a byte that is not part of valid UTF-8 counts as U+FFFD; ? and classes treat the empty string as U+FFFD, a text matches only itself.", "quantifier": "every such term, all separators, every string of bytes", "why_tests_cant": "all strings, valid UTF-8 or not", "anchors": ["glob/glob.go:Compile", "glob/match/single.go:Single.Match", "glob/match/list.go:List.Match", "glob/match/range.go:Range.Match", "glob/match/any.go:Any.Match"]}
{"id": "C114", "title": "LastIndex, exactly", "statement": "LastIndex returns the last position of the needle, or -1 if there is none, except that a needle of two or more runes at position 0 of a longer slice is not seen: then the result is the last other position, or -1.", "quantifier": "all rune slices", "why_tests_cant": "all slices", "anchors": ["glob/util/runes/runes.go:LastIndex"]}
{"id": "C115", "title": "p*s without separators, exactly", "statement": "For texts p and s written as documented, the pattern p*s without separators compiles and matches exactly the byte strings that start with p and end with s, also if these overlap in the string.", "quantifier": "all texts p and s, all byte strings", "why_tests_cant": "all strings", "anchors": ["glob/match/prefix_suffix.go:PrefixSuffix.Match", "glob/compiler/compiler.go:Compile"]}
{"id": "C116", "title": "generate --clip copies exactly what it prints", "statement": "Whatever options, random bytes and clipboard results: generate prints the generated password and a newline once, after the clipboard was tried, even if the clipboard fails; if no password can be generated it prints nothing and leaves the clipboard alone. With --clip, the clipboard (pbcopy, Windows) is offered that password and nothing else, never crashing; on Unix the clipboard is never touched (see C61). If nothing fails, the password is handed over completely.", "quantifier": "all options and forms, all random streams, all systems and all results of their clipboard calls", "why_tests_cant": "the clipboard calls can fail in any combination and the password is random", "anchors": ["cmds/generate.go:GenerateCmd.Run", "clipboard/clipboard.go:Write", "clipboard/clipboard_darwin.go:write", "clipboard/clipboard_windows.go:write"]}
{"id": "C117", "title": "globtest and globdraw use the listed separators", "statement": "globtest -p P -s S -f F prints whether P, compiled with the separators listed in S (none if S is empty), matches F, and rejects S exactly if an element between commas has more than one character; globdraw draws P compiled with these separators.", "quantifier": "all patterns, separator lists and texts, also invalid UTF-8", "why_tests_cant": "needs all byte strings as lists, patterns and texts; the tests never run these programs", "anchors": ["glob/cmd/globtest/main.go:main", "glob/cmd/globdraw/main.go:main", "glob/glob.go:Compile"]}
{"id": "C118", "title": "Generate is safe for concurrent use", "statement": "Several calls of Generate on one Generator at the same time, with reads of the random source interleaved in any order: every byte of the source is read by one call only; every call that ends has exactly the result it would have alone on the bytes it read, so every password still has the composition its call asked for; and no call ever waits for another.", "quantifier": "all generators, all sets of calls, all random sources and all schedules", "why_tests_cant": "the schedules of goroutines cannot be enumerated by tests", "anchors": ["password/generate.go:Generator.Generate", "password/generate.go:randomElement", "password/generate.go:randomInsert"]}
{"id": "C119", "title": "An interrupted insert leaves the old or the new entry", "statement": "Wherever insert is interrupted (killed between any two steps), whatever reads and writes fail, and whatever other inserts run at the same time: no file but the entry is changed, and the entry is the old one or has the complete new text; success is reported only if the text is complete.", "quantifier": "all file systems, all sets of concurrent inserts, all ways the source is read in pieces, all failures, all schedules and crash points", "why_tests_cant": "crash points, failures and interleavings cannot be enumerated by tests", "anchors": ["cmds/insert.go:InsertCmd.Run"]}
{"id": "C120", "title": "Generate does not depend on the size of machine integers", "statement": "For all machine integers length, numDigits and numSymbols, Generate treats the request as the request of these integers: it rejects it as too long exactly if numDigits + numSymbols exceeds length, and otherwise gives passwords of that length.", "quantifier": "all triples of 64-bit integers, all generators, options and random streams", "why_tests_cant": "there are 2^192 requests, and the wrong ones are at the far end", "anchors": ["password/generate.go:Generator.Generate"]}
{"id": "C121", "title": "One cipher used by several goroutines", "statement": "When several goroutines call Encrypt, Decrypt, Encrypt64 and Decrypt64 at the same time, on slices that do not overlap, each call leaves in its destination what it would have left alone, and nothing else in the callers' memory changes, even if the goroutines share one cipher.", "quantifier": "all sets of calls, all ciphers, sizes, keys and tweaks, all memory contents and all interleavings of single loads and stores", "why_tests_cant": "a test sees a few schedules; the failing one needs a goroutine to be preempted between two words", "anchors": ["crypter/crypter.go:Cipher.Encrypt", "crypter/crypter.go:Cipher.Decrypt", "crypter/crypter.go:Cipher.Encrypt64", "crypter/crypter.go:Cipher.Decrypt64"]}
{"id": "C122", "title": "A call of a cipher method that panics", "statement": "Encrypt, Decrypt, Encrypt64, Decrypt64, SetKey and SetTweak panic exactly if an argument is too short. A caller who recovers finds that at most the whole words that fit into the destination were written, with the right content, and that the cipher works as if the call had not been made.", "quantifier": "all ciphers after all histories, all slices (lengths, capacities, overlaps), all memory contents and all later sequences of calls, panicking ones included", "why_tests_cant": "every length and capacity of two slices, and every later use of the cipher", "anchors": ["crypter/crypter.go:Cipher.Encrypt", "crypter/crypter.go:Cipher.Decrypt", "crypter/crypter.go:Cipher.Encrypt64", "crypter/crypter.go:Cipher.Decrypt64", "crypter/crypter.go:setKey", "crypter/crypter.go:setTweak"]}
{"id": "C123", "title": "Scan with symbolic links and unreadable directories", "statement": "Scan lists the files and symbolic links that lie directly in the category directories, without following links below the root, and never leaves something out silently: if anything it has to visit cannot be read, the program ends with an error. The root may be a symbolic link to the store.", "quantifier": "all directory trees with files, links (wherever they lead), unreadable directories and entries that vanish, all roots", "why_tests_cant": "needs every shape of tree and every combination of permissions", "anchors": ["repo/repo.go:Repo.Scan"]}
{"id": "C124", "title": "The lines of an entry do not depend on how it is read", "statement": "The lines that GetFileContentByLine delivers are the same for every way in which the system splits the file into reads, and if reading fails it returns an error.", "quantifier": "all file contents, all sequences of read sizes, all callbacks, all points at which a read may fail", "why_tests_cant": "short reads and read errors are up to the system; the buffer is moved and enlarged at content-dependent points", "anchors": ["repo/repo.go:GetFileContentByLine"]}
{"id": "C125", "title": "What is printed where, and how a run ends", "statement": "What a command prints goes to standard output, so that it can be piped or captured; a run ends with status 0 exactly if it ended well, and a run that fails has printed nothing but its error message.", "quantifier": "all commands and arguments, all file systems, environments and directory orders", "why_tests_cant": "it ranges over every command, every store and every way to fail", "anchors": ["main.go:main", "cmds/list.go:ListCmd.Run", "cmds/search.go:SearchCmd.Run", "cmds/show.go:ShowCmd.Run", "cmds/setenv.go:SetEnvCmd.Run"]}
{"id": "C126", "title": "globdraw draws the compiled glob", "statement": "For every pattern and separator list it accepts, globdraw prints a graph in the DOT language, titled with the pattern, whose nodes and edges are the tree of the compiled matcher: a choice or conjunction with its matchers as branches in order, a sequence tree with its middle as the root and its left and right parts (or <nil>) as branches, and every other matcher as one node labelled with its text.", "quantifier": "all patterns, all separator lists, all sequences of random node names that are different", "why_tests_cant": "The drawing is a recursive text with random names, re-formatted at every level; tests look at a few drawings only.", "anchors": ["glob/match/debug/debug.go:Graphviz", "glob/match/debug/debug.go:graphviz_internal", "glob/cmd/globdraw/main.go:main", "glob/match/text.go:Text.String"]}
{"id": "C127", "title": "QR functions refuse versions, levels and masks that do not exist", "statement": "NewPlan, Encode, Generate, DataBytes and AddCheckBytes called with a version other than 1 to 40, a level other than L, M, Q and H or a mask other than 0 to 7 do not return a plan, symbol or number, and NewPlan and Encode report it as an error; with values in these ranges the results are those of C28 to C35.", "quantifier": "all integers as version, level and mask; all texts and sequences of segments", "why_tests_cant": "The arguments are ints; tests use the named constants only.", "anchors": ["qrterminal/qrcode/coding/qr.go:NewPlan", "qrterminal/qrcode/coding/qr.go:Mask.Invert", "qrterminal/qrcode/coding/qr.go:fplan", "qrterminal/qrcode/coding/qr.go:Version.DataBytes", "qrterminal/qrcode/coding/qr.go:Bits.AddCheckBytes", "qrterminal/qrcode/qr.go:Encode", "qrterminal/qrterminal.go:GenerateWithConfig"]}
{"id": "C128", "title": "Write and Pad append exactly the bits asked for, for any arguments", "statement": "For every bit buffer, every value v and every number of bits n, Write(v, n) appends the n low bits of v, most significant first, and leaves every bit written before unchanged; Pad(n) appends exactly n bits; encoding a segment that Check would reject still appends as many bits as its length announces and changes nothing before.", "quantifier": "all histories of writes, all unsigned integers as values, all integers as numbers of bits, all texts", "why_tests_cant": "The tests write values that fit their width; a value that does not fit only disturbs earlier bits at some alignments.", "anchors": ["qrterminal/qrcode/coding/qr.go:Bits.Write", "qrterminal/qrcode/coding/qr.go:Bits.Pad", "qrterminal/qrcode/coding/qr.go:Num.Encode", "qrterminal/qrcode/coding/qr.go:Alpha.Encode", "qrterminal/qrcode/coding/qr.go:String.Encode"]}
{"id": "C129", "title": "The packed pixels of a plan", "statement": "A Pixel made with PixelRole.Pixel (role below 16), OffsetPixel (offset below 2^26), Black and Invert reads back through Role, Offset and the flag tests as exactly what was put in; every 32-bit word is the union of what it reads as; OffsetPixel of a larger offset keeps the low 26 bits, Pixel of a larger role spills into the offset; Pixel.String never gives two different pixels the same text. For every version 1 to 40, level and mask, the words of NewPlan's grid are such pixels: no field overflows into another, every bit of the data and check bytes is the offset of exactly one Data or Check pixel, Data offsets are below the data bits and Check offsets from there to the end, Format pixels hold a bit number below 15 and are inverted where 0x5412 has a bit, all others have offset 0, and Data, Check and Extra pixels are black and inverted exactly where the mask says. Plan.Encode of that grid colours every module by its word: its Black flag, flipped for Data and Check pixels whose bit of the code bytes is set.", "quantifier": "all 32-bit words, all roles (uint32) and offsets (uint64), all versions, levels, masks, and all lists of encodings", "why_tests_cant": "2^32 words and 1280 plans with up to 31329 pixels each; the field-overflow and exactly-one-place claims are about all of them, and Encode's about all texts", "anchors": ["qrterminal/qrcode/coding/qr.go:Pixel", "qrterminal/qrcode/coding/qr.go:PixelRole", "qrterminal/qrcode/coding/qr.go:NewPlan", "qrterminal/qrcode/coding/qr.go:Plan.Encode"]}
{"id": "C130", "title": "A picture written to any writer", "statement": "GenerateWithConfig, Generate and GenerateHalfBlock pass the whole picture to their Writer exactly once and in order, in pieces that do not depend on what Write answers; so a writer without limit gets exactly the picture, one that is full after r bytes its first r bytes, and one that loses some pieces a subsequence; a text without a code panics before Write is called, a nil writer always panics. An error of Write is not reported and does not end the writing, so one failing call leaves a gap in the middle of what arrives.", "quantifier": "all texts, levels, configurations; all writers (any state, any answers, including partial writes, errors, later recovery and panics)", "why_tests_cant": "Tests write to buffers and os.Stdout, which do not fail; a writer may fail at any of thousands of calls.", "anchors": ["qrterminal/qrterminal.go:GenerateWithConfig", "qrterminal/qrterminal.go:Config.writeFullBlocks", "qrterminal/qrterminal.go:Config.writeHalfBlocks", "qrterminal/qrterminal.go:Generate", "qrterminal/qrterminal.go:GenerateHalfBlock"]}
{"id": "C131", "title": "Alphabets with characters outside ASCII", "statement": "A generator made with alphabets of any characters (NewGenerator takes them as strings) gives passwords of exactly `length` characters, all of them characters of the alphabets, as many digits and symbols as asked for, and with repeats forbidden no character twice.", "quantifier": "all alphabets (any byte strings), all non-negative counts, all random streams", "why_tests_cant": "The tests use ASCII alphabets only; whether a character is torn apart depends on the random positions.", "anchors": ["password/generate.go:NewGenerator", "password/generate.go:Generator.Generate", "password/generate.go:randomElement", "password/generate.go:randomInsert"]}
{"id": "C132", "title": "For which forms generate keeps its promises", "statement": "A form can be printed at all unless --unique is given and it asks for more than 10 digits, 30 symbols or 26 letters (52 with --mixed), where of k times a, k/3 rounded down are digits and the others letters. For a form that can be printed: every a is a letter or a digit for all draws if and only if the form does not have both an a and an s; with --unique no character is printed twice (separators aside) for all draws if and only if the form has no a and, with --mixed, at most one x and at most one X; or it has k > 0 times a, no n, no s and, with --mixed, no x and no X, without --mixed no x among the first k of its x and X.", "quantifier": "every form string, all flags, all random streams", "why_tests_cant": "whether a draw exists that breaks the promise cannot be seen by trying draws", "anchors": ["cmds/generate.go:GenerateCmd.Run"]}
{"id": "C133", "title": "A damaged picture of a QR code still determines the text", "statement": "Take pictures of codes in which some modules have the wrong colour and some cannot be read. If in one copy of the format information twice the wrong plus the unreadable modules are at most 6, and in every block twice the wrong plus the unreadable code words are at most the number of its check bytes, the picture determines level, mask and text: no symbol of that size with another text, whatever its level, mask and segments, fits the picture equally well, and so one reader exists that obtains the text of every code from every such picture. In particular three wrong or six unreadable modules anywhere never matter, codes of the same size for different texts differ in at least 8 modules, and codes of different levels in at least 14.", "quantifier": "all texts, levels, versions, masks, segment lists, and all pictures (functions from coordinates to colour or unreadable)", "why_tests_cant": "the number of damaged pictures of a single code is astronomical", "anchors": ["qrterminal/qrcode/coding/qr.go:Plan.Encode", "qrterminal/qrcode/coding/qr.go:fplan", "qrterminal/qrcode/gf256/gf256.go:ECC", "qrterminal/qrcode/qr.go:Encode"]}
{"id": "C134", "title": "How hard a generated password is to guess", "statement": "The number N of passwords that a request allows is C(n,d) * C(n-d,s) times the ways to fill the places of letters, digits and symbols from their alphabets (powers if characters may repeat, falling factorials otherwise). Every one of them comes out with the same probability, that of getting a password at all divided by N (exactly 1/N if characters may repeat), so whoever tries k passwords, chosen in whatever way without seeing it, finds the password with probability at most k/N.", "quantifier": "all lengths and counts, all alphabets without repeated or shared characters, both flags, all sets of guesses", "why_tests_cant": "it is about a distribution over astronomically many passwords", "anchors": ["password/generate.go:Generate", "password/generate.go:randomInsert", "password/generate.go:randomElement"]}
{"id": "C135", "title": "How hard a text generated from a form is to guess", "statement": "For every form (with or without `a`), without --unique: a text that can be printed has exactly the probability that a password begins with the characters printed for the `a` times 1/26, 1/10 and 1/30 for each letter, digit and symbol that those do not show already; other texts have probability 0. So no text is more likely than (1/26)^(x+X) * (1/10)^n * (1/30)^s, and whoever tries k texts finds the printed one with probability at most k times that. A form with only k times `a` prints each of its texts with the same probability, one in C(k,k/3) * 26^(k-k/3) * 10^(k/3) (52 with --mixed). With one or two `a` and no `n` and `s` the `a` add nothing but repeat the first letters: `xa` prints the same letter twice. With --unique (and not --mixed) the probability is that of a part of the ways to choose the places that begin like the characters printed for the `a`, times one in the ways to choose the shown letters among 26, digits among 10 and symbols among 30 without repeating any; so no text is more likely than one in 26*25*... (one factor for each x and X) * 10*9*... * 30*29*.... With --unique and --mixed the same holds for 52 letters, times the number of ways to give the printed letters a case in the password (2 for a letter that is new, 1 for one that is printed a second time), so that texts with a repeated letter are less likely but possible.", "quantifier": "all forms, with and without --mixed, all texts and all sets of guesses", "why_tests_cant": "it is about a distribution over all random streams", "anchors": ["cmds/generate.go:GenerateCmd.Run", "password/generate.go:Generate"]}
{"id": "C136", "title": "Word lists longer than the range of the identifiers", "statement": "Up to 2^32 words in one call of New or Add the 32-bit identifiers make no difference. Entering a list of any length is the same as entering its consecutive portions of 2^32 words one after the other, and the possible results and crashes of Closest and ClosestN are exactly those of that history. So for one list a search finds, for each position whose word shares a fragment with the query, the word at the last position of the list with the same number modulo 2^32; a word that is not among the last 2^32 positions is never returned (an index of abc and 2^32 times xyz answers xyz to abc).", "quantifier": "all word lists of any length, all fragment sizes, all histories of New and Add, all queries and all schedules", "why_tests_cant": "a test cannot build lists of more than 2^32 words and all histories of them", "anchors": ["closestmatch/closestmatch.go:New", "closestmatch/closestmatch.go:Add", "closestmatch/closestmatch.go:Closest"]}
{"id": "C137", "title": "How long a glob match takes", "statement": "For every pattern p that compiles, with any separators, and every string s, Match ends after at most (|s|+2)^(6|p|+2) calls of the methods Match and Index of matchers. The exponent has to grow with the pattern: for the pattern **b, k times **a, ** and the string of n letters a, Match returns false after exactly 2(C(n,0)+...+C(n,k))-1 calls; so a pattern of 3n+5 bytes and a string of n bytes take 2^(n+1)-1 calls, and no polynomial in the length of the string bounds the calls for all patterns.", "quantifier": "all patterns, separator lists and strings; all k and n", "why_tests_cant": "running times for all patterns and lengths cannot be measured by tests; the bad patterns take longer than any test can wait", "anchors": ["glob/match/btree.go:BTree.Match", "glob/match/row.go:Row.Match", "glob/match/any_of.go:AnyOf.Match", "glob/match/every_of.go:EveryOf.Match", "glob/compiler/compiler.go:compileMatchers", "glob/glob.go:Compile"]}
{"id": "C138", "title": "How many random numbers Generate draws", "statement": "For an accepted request without repeats over duplicate-free, disjoint ASCII alphabets with a letters, b digits and c symbols, Generate calls rand.Int on average (a/a + a/(a-1) + ... for the letters asked for) + (the same for the digits) + (the same for the symbols) + (length - 1) times; the probability of more than t calls is at most that average divided by t+1, and if no alphabet has more than M characters the probability of more than length*(k+1) calls is at most length*(1-1/M)^k. Every call that returns a password makes at least 2*length-1 calls of rand.Int, and exactly 2*length-1 when repeats are allowed. The most a default generator can be asked for (52 letters, 10 digits, 30 symbols) takes fewer than 500 calls on average. That largest request takes more than 100000 calls with a probability below one in a million.", "quantifier": "all alphabets (ASCII, duplicate-free, disjoint), all accepted requests with non-negative counts, all sequences of random numbers; every bound on the retries and its limit", "why_tests_cant": "an average over the random source and a lower bound over all runs; tests see single runs", "anchors": ["password/generate.go:Generator.Generate", "password/generate.go:randomElement", "password/generate.go:randomInsert"]}
{"id": "C139", "title": "How every pattern is read, and which patterns Compile accepts", "statement": "Compile reads the characters of a pattern (a byte that is not valid UTF-8 counts as U+FFFD) from left to right: { opens a brace; inside braces , separates and } closes; [ begins a class that is either lo-hi] with lo not above hi, or one or more characters up to ] with backslash escapes, optionally after !; ? , * and ** are wildcards; everything else is text up to the next special character, a backslash taking the next character as it is; braces left open are closed by the end. Compile returns an error exactly if a class is not of that form or U+FFFD is met, and otherwise the tree that is matched is the one of these parts. In particular a pattern without [ and without invalid bytes or U+FFFD is always accepted, a pattern with an invalid byte or U+FFFD and without U+0000 is always rejected (even escaped, even through QuoteMeta), and U+0000 after wildcards ends the pattern: what follows is ignored.", "quantifier": "all patterns (byte strings, valid UTF-8 or not), all separators", "why_tests_cant": "unboundedly many patterns of unbounded length and nesting; the lexer's put-back character, token queue and error state interact over the whole pattern", "anchors": ["glob/syntax/lexer/lexer.go:NewLexer", "glob/syntax/lexer/lexer.go:fetchItem", "glob/syntax/lexer/lexer.go:fetchRange", "glob/syntax/lexer/lexer.go:fetchText", "glob/syntax/ast/parser.go:Parse", "glob/glob.go:Compile"]}
{"id": "C140", "title": "Every command ends, and exactly when it crashes", "statement": "On every system, in every environment, with every tree of files, every root and all arguments each command of gpw ends with a result (and so does every sequence of commands). init, insert, generate, remove, rename and copy never crash. list, setenv, grep, and show without --qrcode, crash exactly if Scan crashes on the store (the root is a file, or a file is found whose path is not longer than the root as written); search crashes exactly then or if a text is given, the store can be listed and the number of results is negative or above 2^44. If the root does not exist the reading commands end with an error. Generate with alphabets of at least two characters ends on every source that fails after finitely many bytes.", "quantifier": "all commands and arguments, all environments and systems, all trees of files and working directories, all byte sources that end; all sequences of runs", "why_tests_cant": "termination and absence of crashes for all inputs and all choices of map order and schedule", "anchors": ["main.go:main", "cmds/list.go:Run", "cmds/show.go:Run", "cmds/search.go:Run", "cmds/grep.go:Run", "cmds/setenv.go:Run", "cmds/insert.go:Run", "cmds/generate.go:Run", "password/generate.go:Generator.Generate"]}
{"id": "C141", "title": "The order of alternatives in braces does not matter", "statement": "Two glob patterns that differ only in the order of the alternatives of a pair of braces, or in repeated alternatives, match the same strings: Compile gives matchers with equal Match for every subject.", "quantifier": "every pattern, pair of braces in it, order of its alternatives, separator list and subject", "why_tests_cant": "infinitely many patterns and subjects; the compiler chooses a matcher by the lengths it sees in the order of the alternatives", "anchors": ["glob/match/any_of.go:AnyOf.Len", "glob/compiler/compiler.go:compile", "glob/glob.go:Compile"]}
{"id": "C142", "title": "How long compiling a glob pattern takes", "statement": "Compile of a glob pattern p takes at most 176 (9|p|+1)^4 steps, for any separators: calls of the functions of lexer.go, parser.go and compiler.go, of Len of a matcher and of Equal of a node, and iterations of their loops; at most 148|p|+137 of them for reading the pattern. For n question marks it takes at least n(n+1)(n+2)/6.", "quantifier": "every pattern, separator list and length", "why_tests_cant": "a bound for all patterns; the rewriting of braces calls the compiler again with a new tree, so that it is not even clear that the work stays polynomial", "anchors": ["glob/compiler/compiler.go:compile", "glob/compiler/compiler.go:minimizeMatchers", "glob/compiler/compiler.go:compileMatchers", "glob/compiler/compiler.go:minimizeTree", "glob/compiler/compiler.go:commonChildren", "glob/compiler/compiler.go:optimizeMatcher", "glob/match/any_of.go:AnyOf.Len", "glob/glob.go:Compile", "glob/syntax/lexer/lexer.go:Next", "glob/syntax/ast/parser.go:Parse"]}
{"id": "C143", "title": "Scan while the store changes", "statement": "Other programs may change the store in any way between any two system calls of Scan. For a cleaned root (not \".\" or \"/\", not named .git): if Scan ends normally, every path listed was, during the scan and in this order, found as: a category directory in the root, a directory, a name in it, no directory; every entry that stays unchanged in a category directory that stays unchanged is listed; nothing is listed twice and every category is sorted. Scan returns an error only if the root did not exist, ends the program only if something found in its directory vanished before it was looked at or a directory could not be read, and crashes only if the root was found to be no directory. It ends if the depth of the directories stays bounded. If nothing changes, the outcome is that of C123.", "quantifier": "every history of the file system (what Stat, Lstat and reading a directory answer at every moment, without any assumption on how the moments are related), every timing of the system calls, every root", "why_tests_cant": "ranges over all interleavings of Scan with changes by other programs", "anchors": ["repo/repo.go:Scan"]}
{"id": "C144", "title": "An index saved while words are being added", "statement": "Save does not take the mutex. When calls of Add run while Save runs, then, whatever the order of the single writes and reads: the file has every number entered under a fragment when Save began, only numbers that are entered under that fragment once the running calls have ended, every number in the file has an entry, and the word of a number is the one it stands for after some of the running calls. A search in the saved index crashes exactly if a fragment of the query was saved with no numbers at all or with a number of the empty word; a fragment saved with no numbers is one that the running calls bring. If no Add runs, the file has the index itself.", "quantifier": "every word list and sizes given to New, every history of calls of Add before and during Save, every order in which the fragments are visited, every moment at which Save reads each key, each set member and each entry, every query", "why_tests_cant": "ranges over all interleavings of Save with the writes of Add", "anchors": ["closestmatch/closestmatch.go:Save", "closestmatch/closestmatch.go:Add", "closestmatch/closestmatch.go:worker"]}
{"id": "C145", "title": "Which separators matter", "statement": "Two separator lists given to Compile with the same pattern give matchers that agree on every subject in which the same runes are separators for both: the order of the separators does not matter, nor how often one is given, nor a separator that the subject does not contain.", "quantifier": "every pattern, every pair of separator lists, every subject", "why_tests_cant": "ranges over all patterns, separator lists and subjects", "anchors": ["glob/glob.go:Compile", "glob/util/strings/strings.go:IndexAnyRunes", "glob/util/strings/strings.go:LastIndexAnyRunes", "glob/compiler/compiler.go"]}
{"id": "C146", "title": "The first and the last of several runes in a string", "statement": "IndexAnyRunes(s, rs) of glob/util/strings returns the byte position of the first rune of s that is one of rs, LastIndexAnyRunes(s, rs) that of the last, both -1 if no rune of s is one of rs, and neither panics.", "quantifier": "every string of any bytes, every list of runes", "why_tests_cant": "ranges over all strings, including invalid UTF-8, and all rune lists", "anchors": ["glob/util/strings/strings.go:IndexAnyRunes", "glob/util/strings/strings.go:LastIndexAnyRunes"]}
{"id": "C147", "title": "The JSON text of a saved index", "statement": "Save writes a JSON text of the index, the same one whatever order the maps are visited in, and Load reads it back as the same index, with the same answers to every search, whatever characters (quotation marks, backslashes, control characters, non-ASCII) the words and fragments contain, as long as they are valid UTF-8; bytes that are not valid UTF-8 become U+FFFD. A text that ends early is never read as an index.", "quantifier": "every word list, substring sizes, calls of Add, every index, every query, every beginning of the text", "why_tests_cant": "ranges over all indexes and all strings in them, all map orders and all places where a text can be cut", "anchors": ["closestmatch/closestmatch.go:Save", "closestmatch/closestmatch.go:Load", "closestmatch/closestmatch.go:ClosestMatch", "closestmatch/closestmatch.go:IDInfo"]}
{"id": "C148", "title": "Saving that fails or is interrupted", "statement": "If Save returns nil, Load of the file gives the saved index; if a write fails, or the process is killed while Save runs, the file has the old index or the new one, and Load never gives a part of an index.", "quantifier": "every index, every old content of the file, every pattern of failing or partial writes, every moment of a crash, every compression that meets two laws", "why_tests_cant": "ranges over all failures and crash points, for all sizes of index", "anchors": ["closestmatch/closestmatch.go:Save", "closestmatch/closestmatch.go:Load"]}
{"id": "C149", "title": "What can be done with a loaded index", "statement": "If Load returns without an error, the index can be searched and words can be added to it without a crash, whatever is in the file.", "quantifier": "every JSON value in the file, every query, every list of words", "why_tests_cant": "ranges over all file contents, queries and word lists", "anchors": ["closestmatch/closestmatch.go:Load", "closestmatch/closestmatch.go:Add", "closestmatch/closestmatch.go:Closest", "closestmatch/closestmatch.go:worker"]}
{"id": "C150", "title": "Everyday patterns", "statement": "The pattern p*.{e1,e2,...} of a text p without special characters (it may be empty) and extensions, two of which differ, with any separators, matches a UTF-8 text exactly if it is p, characters that are no separators, a dot and one of the extensions; the pattern {w1,w2,...} matches exactly the texts w1, w2, ...", "quantifier": "every text, every list of extensions or words, every list of separators, every valid UTF-8 subject", "why_tests_cant": "ranges over all patterns of the shape and all subjects", "anchors": ["glob/glob.go:Compile", "glob/compiler/compiler.go:Compile"]}
{"id": "C151", "title": "Index of a matcher finds the first match", "statement": "Index(s) of a matcher of package glob/match returns -1 only if Match is false of every non-empty substring of s. Otherwise it returns a position and at least one length, in ascending order without repetition: the substrings of these lengths at the position lie inside s and Match is true of them, and no non-empty substring that starts before the position matches.", "quantifier": "every matcher, every string", "why_tests_cant": "ranges over all matchers and strings", "anchors": ["glob/match/match.go:Matcher", "glob/match/prefix_suffix.go:Index", "glob/match/suffix_any.go:Index", "glob/match/prefix_any.go:Index", "glob/match/contains.go:Index", "glob/match/any_of.go:Index", "glob/match/row.go:Index"]}
{"id": "C152", "title": "Passwords generated one after the other are independent", "statement": "Calls of Generate one after the other (with any generators and arguments) read the random source one after the other, and the probability of a list of passwords is the product of the probabilities that each call gives its password. So knowing all other passwords, earlier and later ones, does not help: whoever tries k passwords, chosen depending on them, finds the password with probability at most k/N, where N is the number of passwords the request allows (C134). Of k passwords for requests that allow at least N each, two are equal with probability at most k(k-1)/2/N; two calls with the same request give the same password with exactly the probability that both give one, divided by N. Among a billion passwords of Generate(16, 4, 4, false, true) two are equal with a probability below one in a hundred billion.", "quantifier": "all lists of requests (alphabets ASCII, duplicate-free, disjoint for the bounds), all positions in the list, all guessing strategies, every bound on the retries", "why_tests_cant": "a statement about the joint distribution over all sequences of random numbers and about every strategy of guessing; tests see single runs", "anchors": ["password/generate.go:Generator.Generate", "password/generate.go:Generate"]}
{"id": "C153", "title": "Uniform random bytes give uniform passwords", "statement": "For every number L of bytes and every request with non-negative counts over duplicate-free, disjoint ASCII alphabets, the same number of byte strings of length L from the random source lead Generate to each password that satisfies the request, and none to any other string; from some L on this number is positive. So whoever tries k passwords is right for at most k/N of the byte strings, N being the number of passwords (C134). For generate --form the numbers of byte strings of length L that print the texts are proportional to the probabilities of C107 and C135, and equal for all texts of a form without a (unless --mixed and --unique are both given). For any computation that draws its random numbers with rand.Int, the part of the byte strings of length L on which it returns x never exceeds the probability of x computed with uniform rand.Int, and comes as close to it as wanted for large L: the probabilities of C06, C107, C134, C135 and C152 are those for uniform random bytes.", "quantifier": "all lengths of byte strings, all alphabets (ASCII, duplicate-free, disjoint), all requests, all passwords, all sets of guesses; all forms and flags of generate --form; all computations over rand.Int; every bound on the retries", "why_tests_cant": "counts over all 256^L byte strings for every L; tests see single ones", "anchors": ["password/generate.go:Generator.Generate", "password/generate.go:randomElement", "password/generate.go:randomInsert", "cmds/generate.go:GenerateCmd.Run"]}
{"id": "C154", "title": "How many random bytes Generate reads", "statement": "For any computation over rand.Int that does not fail by itself, the average number of uniformly distributed random bytes it reads is computed by Prog.bytes: it is the sum over all L of the part of the byte strings of length L that are too short, and L bytes are too few for at most that average divided by L+1 of them. For Generate it is at most two bytes per number drawn (C138), for alphabets and passwords of up to 256 characters, hence without repeats at most twice the average number of draws. The largest request the default generator accepts takes fewer than 1000 bytes on average. The part of the byte strings of length L that are too short falls exponentially with L; 300000 bytes are too few for that largest request in fewer than one case in a million.", "quantifier": "all lengths of byte strings; all computations over rand.Int; all non-empty ASCII, duplicate-free, disjoint alphabets, all accepted requests of up to 256 characters, every bound on the retries", "why_tests_cant": "an average over all byte strings of all lengths; retries have no fixed bound", "anchors": ["password/generate.go:Generator.Generate", "password/generate.go:randomElement", "password/generate.go:randomInsert"]}
{"id": "C155", "title": "What the result of a search depends on", "statement": "The possible results of Closest and ClosestN, and whether they may crash, depend only on how many times each word that shares a fragment with the query was given to New: not on the order of the words and not on any other words. They do not depend on the order or repetition of the fragment sizes, and of the query only its set of fragments matters. A word that shares a fragment does matter: it may change which of two other words is the better one.", "quantifier": "all lists of words, all non-negative fragment sizes, all queries, all iteration orders of Go maps, any lower-casing of non-ASCII words", "why_tests_cant": "relates two runs on arbitrarily different indexes, over every map order", "anchors": ["closestmatch/closestmatch.go:New", "closestmatch/closestmatch.go:Closest", "closestmatch/closestmatch.go:ClosestN", "closestmatch/closestmatch.go:match"]}
{"id": "C156", "title": "Two searches for the same query", "statement": "After any calls of New and Add: ClosestN(q, n) gives the first n of a list that ClosestN(q, m) may give for every m >= n, and every such start may be given; Closest(q) gives the first of such a list, or the empty string if it is empty. Two calls with the same arguments give lists of the same length (n, or the number of words found if that is less) with the same scores at the same places; they are equal if no two words found have the same score.", "quantifier": "all histories of New and Add, all non-negative fragment sizes, all queries, all numbers up to 2^44, all schedules of the goroutines and iteration orders of Go maps", "why_tests_cant": "relates any two runs, each under any schedule and map order", "anchors": ["closestmatch/closestmatch.go:ClosestMatch.Closest", "closestmatch/closestmatch.go:ClosestMatch.ClosestN", "closestmatch/closestmatch.go:rankByWordCount"]}
{"id": "C157", "title": "Pictures with any glyphs determine the text", "statement": "GenerateWithConfig with any glyphs that can be told apart (each has at least one byte and does not start with a newline, none is the start of another; two with full blocks, four with half blocks), and any quiet zone: if two calls that differ in text and level only write the same bytes, the texts and the levels are the same. With equal glyphs for black and white all texts whose symbols have the same size give the same picture.", "quantifier": "all texts that fit, all levels, all glyphs that can be told apart, all quiet zones (also negative ones), full and half blocks", "why_tests_cant": "injectivity over all pairs of texts and all configurations", "anchors": ["qrterminal/qrterminal.go:GenerateWithConfig", "qrterminal/qrterminal.go:writeFullBlocks", "qrterminal/qrterminal.go:writeHalfBlocks", "qrterminal/qrcode/qr.go:Encode"]}
{"id": "C158", "title": "A backslash before an ordinary character changes nothing", "statement": "If c is a character without special meaning (none of * ? [ { } , and the backslash, not U+0000 or U+FFFD), p any bytes without [ and backslash and q any bytes, then Compile accepts the patterns p \\c q and p c q or rejects both, and gives the same glob. In a class it is different: [\\-a] is a range.", "quantifier": "all patterns, characters, positions not after a [ or a backslash, and separators", "why_tests_cant": "all patterns and positions", "anchors": ["glob/syntax/lexer/lexer.go:fetchText", "glob/syntax/ast/parser.go:Parse", "glob/glob.go:Compile"]}
{"id": "C159", "title": "Which contents the output of a command depends on", "statement": "What list prints, and search without a content, does not depend on the content of any file. What show prints depends, besides the names, on the content of one file. What setenv with a name exports depends on the content of that entry only. What grep, search with a content and setenv without a name print depends on the contents of the listed entries only: files outside of the store or not listed do not matter.", "quantifier": "all pairs of file systems that have the same directories and names, all roots, arguments and orders in which the directories are visited", "why_tests_cant": "a noninterference property: it compares all pairs of stores", "anchors": ["cmds/list.go:ListCmd.Run", "cmds/search.go:SearchCmd.Run", "cmds/show.go:ShowCmd.Run", "cmds/grep.go:GrepCmd.Run", "cmds/setenv.go:SetEnvCmd.Run", "repo/repo.go:Scan"]}
{"id": "C160", "title": "Patterns that are a run of stars", "statement": "A pattern of k stars compiles with any separators. One star matches the strings without a separator; two or more match every string, except that an odd number (three or more) does not match the empty string if there are separators.", "quantifier": "all numbers of stars, separators and byte strings", "why_tests_cant": "all numbers of stars and all strings", "anchors": ["glob/syntax/lexer/lexer.go:fetchItem", "glob/compiler/compiler.go:glueMatchersAsEvery", "glob/compiler/compiler.go:minimizeMatchers", "glob/match/btree.go:Match", "glob/glob.go:Compile"]}
{"id": "C161", "title": "When the code that show --qrcode prints holds the value", "statement": "If the line selected by show --qrcode (by its number, or by a field name with which it starts) is the field name, or nothing, followed by a value, then the command ends well and prints the code of this value exactly if the value fits into a code, has no colon, and does not start or end with white space. So with --field name and the line 'name: value' the code is never the one of the value: what is scanned starts with a blank.", "quantifier": "all stores, entries, arguments of show, and values", "why_tests_cant": "all values, and all pictures are compared", "anchors": ["cmds/show.go:ShowCmd.Run", "qrterminal/qrterminal.go:Generate"]}
{"id": "C162", "title": "What list, grep and show print can be read back", "statement": "The output of list determines the names of the entries, whatever characters they contain, also newlines: if list prints the same for two stores, they have the same entries. The output of grep determines the matches (entry, number of the line, text of the line): if it is the same for two stores, also with different patterns, the same lines of the same entries match. The output of show (without --line) determines the entry and its lines. The last two are false if names of entries contain newlines, and the last one also for binary entries.", "quantifier": "all pairs of stores, patterns and outputs", "why_tests_cant": "injectivity ranges over all pairs of stores", "anchors": ["cmds/list.go:ListCmd.Run", "cmds/grep.go:GrepCmd.Run"]}
{"id": "C163", "title": "Line numbers mean the same to all commands", "statement": "If the name given to show has one entry as its only best match, and this entry is not binary: grep reports the line t with the number n exactly if t matches and show --line n prints t; the numbered output of show has the line 'n: t' at place n exactly for these t; and show --qrcode --line n draws the code of what show makes of this t (trimmed, cut at the first colon).", "quantifier": "all stores, names, patterns, numbers and lines", "why_tests_cant": "agreement of four outputs for all stores and patterns", "anchors": ["cmds/grep.go:GrepCmd.Run", "cmds/show.go:ShowCmd.Run", "repo/repo.go:SearchInFile", "repo/repo.go:GetFileContentByLine"]}
{"id": "C164", "title": "The full name of an entry makes show print this entry", "statement": "show with the full name of an entry, in lower case, prints this entry. This is false in general: show prints the entry with the largest value, where each two-byte fragment shared with the given name counts one, plus 1000 / (length of the entry's name), plus 1000 / (number of entries that have the fragment); an entry is hidden, and no name makes show print it, if another entry has all fragments of its name and a larger value of 1000 / length (sites/aaaa beside sites/aaa). The full name picks its entry alone exactly if for every other entry the inequality of C164_full_name_partial holds; in particular if no other entry has a shorter name and each other entry lacks a fragment of the name.", "quantifier": "all stores, entries and names", "why_tests_cant": "depends on all entries of the store at once; which entry is picked is an inequality between sums over fragments", "anchors": ["cmds/show.go:ShowCmd.Run", "closestmatch/closestmatch.go:Closest", "closestmatch/closestmatch.go:match"]}
{"id": "C165", "title": "Entries that have nothing in common with the name do not change what show and search print", "statement": "If two stores have the same entries (with the same texts) among those that share a two-byte fragment with the given name, then they have the same best matches, show on the second prints what it may print on the first (the same, if there is only one best match), and search prints the first entries of the related entries in an order by the values they have in the first store. For related entries it does not hold, even if they are never printed: adding sites/xxab to sites/xab and sites/xcd1 makes show abcd print sites/xcd1 instead of sites/xab.", "quantifier": "all pairs of stores, all names, numbers of results and contents", "why_tests_cant": "relates runs on two arbitrary stores", "anchors": ["cmds/show.go:ShowCmd.Run", "cmds/search.go:SearchCmd.Run", "closestmatch/closestmatch.go:Closest", "closestmatch/closestmatch.go:ClosestN"]}
{"id": "C166", "title": "What show, search, list and grep can print, and when show always prints the same", "statement": "The possible results of show with a name are exactly: for each best match among the entries its text (with --qrcode also the code of C78, or its crash), and nothing if no entry has a fragment in common with the name. So (if no entry has a newline in its name) show has one possible result exactly if there is at most one best match; with sites/xab and sites/xcd, show abcd may print either entry. search can print exactly the first entries (or their matching lines) of any list of the related entries in which the values do not rise; list can print exactly the categories that have entries in any order, each with all its entries in the order of their names. grep can print exactly the matching lines of all entries, in such an order. list with a text can print exactly the entries, in the order of their names, of a category with entries that is a best match for the text among these categories (nothing if none has a fragment in common with it).", "quantifier": "all stores, names and flags, all iteration orders of Go maps and schedules of goroutines", "why_tests_cant": "says which of the results that Go's map order allows can occur; a test sees one order", "anchors": ["cmds/show.go:ShowCmd.Run", "closestmatch/closestmatch.go:Closest", "closestmatch/closestmatch.go:rankByWordCount", "cmds/search.go:SearchCmd.Run", "cmds/list.go:ListCmd.Run", "cmds/grep.go:GrepCmd.Run"]}
{"id": "C167", "title": "set-env always sets the same values", "statement": "set-env with a name always does the same. Without a name its possible results are exactly: for any order of the categories that have entries, the exports of all entries, category by category and in the order of the names, up to the first binary entry. So, if no entry is binary, the possible values of a variable are exactly the last exports of the categories that export it, and a variable that entries of only one category export has the same value after every run. In general this is false: if sites/a and email/b export the same variable, it gets the one password or the other.", "quantifier": "all stores, names, variables and environments, all iteration orders of Go maps", "why_tests_cant": "relates any two runs; a test sees one order of the map", "anchors": ["cmds/setenv.go:SetEnvCmd.Run", "repo/repo.go:Scan"]}
