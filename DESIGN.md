# Formal model of jurgen-kluft/go-pass in Lean 4

## Layout

`lean/Verif/<Area>/`. In each area `Model.lean` (or the files named below) is the model: every definition cites the Go file and
lines it models. `Spec.lean` (or `*Spec.lean`, `Doc.lean`, `Lang.lean`) is the small independent specification the theorems refer to.
`*Lemmas.lean` are helpers. `*Props.lean` has the property theorems `Cnn_...` and, beside each, an `example` that shows a concrete case
meeting its hypotheses.

| area | Go code | files |
|------|---------|-------|
| `Go` | the parts of the standard library the models need: byte strings, UTF-8 decoding/encoding, `strings`, `filepath`, orders | `Basic Utf8 Strings Path Order` |
| `Password` | `password/generate.go` with `crypto/rand.Int`, `password/mock.go` | `Model` |
| `FormGen` | `cmds/generate.go` | `Model` |
| `Crypter` | `crypter/*.go`, `crypter/cmd/crypt.go` | `Machine` (register machine), `Code256/512/1024` (generated by `tools/gen_threefish.py`, one instruction per Go statement), `Model` (API, heap) |
| `QR` | `qrterminal/qrcode/gf256`, `qrcode/coding`, `qrcode/qr.go`, `qrterminal/qrterminal.go` | `GFModel NewField CodingModel RenderModel` |
| `Closest` | `closestmatch/closestmatch.go` | `Model`, `Shared` (concurrent searches and Adds), `SaveRace` (`Save` while `Add` runs), `Accuracy` (the two accuracy measurements) |
| `Repo` | `repo/repo.go` on a file tree | `Model` |
| `Cmds` | `cmds/{list,show,search,grep,setenv,insert}.go` | `Model` |
| `Main` | `main.go`, `os.ExpandEnv`, the commands that only print | `Model` |
| `GlobSearch` | `repo.GlobSearch` with the globs of package glob | `Model` |
| `Glob` | `glob/**` | `Runes GoStrings Segments Match Syntax Compile` |
| `Clipboard` | `clipboard/*.go` | `Model`, `Session`, `Exec`, `Windows` |

`tools/`: generators and bookkeeping (`manifest.py`, `addprop.py`, `mutate.py`, `claims.txt`); not trusted, not part of a proof.
`seeded/LOG.jsonl`: the wrong programs tried, and which theorems refused them.

## Trusted base

* The kernel of Lean 4.33.0. Every theorem depends on at most the axioms `propext`, `Classical.choice`, `Quot.sound`
  (`#print axioms`); there are no axioms of our own, and no compiled evaluation is used in a proof (`decide +kernel` is kernel
  evaluation).
* The reading of the Go source. The models are written by hand from the source (the unrolled Threefish bodies by a script that
  transcribes them statement by statement). Nothing checks mechanically that a definition is what the Go compiler makes of the
  cited lines; the citations exist so that a reader can.
* The reading of the standard library functions used (named below); they are modelled, or they are parameters over which the
  theorems quantify.

## Modelling conventions

* Go `string`/`[]byte` = `List UInt8` (`Str`); runes = `Nat`; `int` = unbounded `Int`/`Nat` (overflow of `int` is not modelled);
  `uint64` = `BitVec 64`; `byte` = `UInt8`.
* A run-time panic (index out of range, nil dereference, division by zero, `panic`) is an explicit outcome, as are `log.Fatal` and
  returned errors.
* Loops that do not end by structure take a step bound; theorems show that it is never reached, or hold for every bound.
* Map iteration order is an arbitrary permutation; goroutines and channels are a step relation; theorems quantify over all of these.
* Failing writes to standard output, memory exhaustion and signals are not modelled; concurrent changes of the file system only for `Scan` (C143) and `insert` (C119).

## What is modelled and what is not, by area

**Password.** `NewGenerator`, `Generate`, `MustGenerate`, `randomInsert`, `randomElement`, and `crypto/rand.Int` of the standard library
(byte blocks, mask, rejection). The reader is a finite list of bytes followed by a read error; every terminating execution reads a
finite prefix. Concurrent calls are modelled in Password/Shared (C118): what they share is the reader. Strings are byte strings, as the code indexes bytes.
Probability: `Spec.lean` gives the probability of an outcome when every `rand.Int` is uniform, C07 shows that one attempt of it is, C153 that uniform bytes give these probabilities.

**FormGen.** `GenerateCmd.Run` on any flags and form; the clipboard call is in Main/Clip (C116), and
`in-place`/`pass-name` have no effect in the code.

**Crypter.** All functions. Slices are windows in one heap, so every overlap of destination and source is covered. What a call that
panics has written before is modelled in Crypter/Panic (C122), concurrent calls in Crypter/Shared (C121). `base64` is modelled (URL encoding, with padding).

**QR.** `gf256` completely (`String` and `Field.poly` printing aside), `coding` with `Bits`, the three encodings, `Pad`, `AddCheckBytes`,
version table, `NewPlan`, `Plan.Encode`; the four levels and masks 0..7 (others index out of range). The `Pixel` bit packing is a
record. `qr.Encode`, `Black`, `Image`; the terminal writers with any characters and quiet zone.
`isSixel` does not exist in this version.

**Closest.** `New`, `Add`, `worker`, `match`, `Closest`, `ClosestN`, `splitWord`, `rankByWordCount`, `Save`, `Load`, `AccuracyMutatingWords`, `AccuracyMutatingLetters` (with arbitrary random numbers). Maps are functions;
identifiers `uint32(i)` are natural numbers (Closest/Wrap lifts this). `Save` while `Add` runs: Closest/SaveRace, C144. The non-ASCII part of `ToLower` is a parameter. `Save` followed by `Load` is a map of
strings through Go's UTF-8 replacement rule (`SaveLoad`); Closest/Json derives it from the JSON text (C147): the encoder of encoding/json on this type, with the short escapes of newer releases or without them, and its decoder for
texts without white space between tokens, integers, and exact field names (Closest/LoadAny: nil maps and the nil pointer, C149). gzip is a parameter with two laws, and writes may fail (Closest/SaveFile, C148). The workers, channels and results are a step relation.

**Repo, Cmds.** A tree of directories and regular files without symbolic links, in which every operation on an existing file succeeds (for `Scan`, Repo/Links lifts this: C123; Repo/Changing lets the store change while `Scan` runs: C143).
`filepath.Walk`, `Join`, `Clean`, `Dir`, `Base` are modelled for Unix. `bufio.Scanner` is a function from content to lines (limit 65536
bytes), which Repo/Scanner derives from its buffer and reads (C124). Here `os.ExpandEnv`, compiled regular expressions and (in `Repo`, not in `GlobSearch`) globs are parameters; `os.ExpandEnv` is modelled in `Main`. Standard output and standard error are one
string (Main/Streams separates them and says what a failing command has printed: C125). `cmds` `init, remove, rename, copy, query` only print.

**Glob.** Lexer, parser, compiler, all matchers with `Match`, `Index` and `Len`, `QuoteMeta`, `Compile`, the rune utilities, the segment pools.
`Match.lean` has lists for the slices of segments; `Heap.lean` has the arrays, the pools and the goroutines, and C92 shows that they give the same results. `reflect.DeepEqual` on trees is structural equality. `String` methods and `debug` are in
C126. Theorems about the language of matchers are for ASCII subjects (C57_flat_partial, C57_braces_partial, C57_wide_partial, C57_checked_partial) or for valid UTF-8 (C57_utf8_flat_partial, C57_utf8_braces_partial, C57_utf8_wide_partial, C57_utf8_checked_partial: the `Rune*`
files; the conditions exclude rows of matchers that are not ASCII, whose confusion of bytes and runes is shown by counterexample).

**Clipboard.** Unix: `init`, `read`, `write`, the commands as parameters. Windows: every system call may have any result (`Windows.lean`).
Darwin: as Unix with fixed commands.

**Main.** One run of the program is a relation between the file systems before and after and the result; the environment, the system and the parsed arguments are given.
What a failing command has printed is modelled in Main/Streams (C125) only. On windows too paths are Unix paths, so nothing is claimed for it. `insert` reads the file the parser opened;
Main/InsertSteps has it read in arbitrary pieces with errors, as from standard input (C119).

**Not modelled:** parsing of the command line by `kong` and `flag`, the benchmarks of `globtest -v`, `password/mock.go`, the tests.

## Properties and proofs

| id | what is modelled | how it is proved |
|----|------------------|------------------|
| C01-C05 | `Generate` over the decision tree of its draws | loop invariant; C05 builds the stream backwards |
| C06, C07 | probability of outcomes; `rand.Int` | symmetry of the tree under permutations; counting preimages of the mask |
| C08 | same | false: negative counts are accepted (counterexample); exact length for all integers |
| C09 | same | a continuation exists from every state; divergence for overlapping alphabets |
| C10, C11, C62 | form filling | induction over the form; C11, C62 false for forms with `a` (counterexamples); `FormGen/Exact.lean`: exactly the forms for which they hold (C11: not both `a` and `s`; C62: `SafeForm`) |
| C12, C13, C18 | the unrolled bodies | symbolic evaluation of the instruction lists to a normal form, compared with the published rounds; inverse lemma per round |
| C14-C17, C63 | API on heaps, all histories | invariant on scratch buffers; C16 false (counterexample) |
| C19 | `Cryptor` | false: `Decrypt` swaps its arguments; exact condition proved |
| C20-C24, C64 | `NewField`, tables, `gen`, `ECC` | algebra over `ZMod 2` polynomials; division invariant; Vandermonde for the distance |
| C25-C29 | `Bits`, encodings, padding, version choice | induction over bit lists; the version table is finite and evaluated by the kernel |
| C30-C32, C65-C67 | plan construction | generic placement lemmas; counting; finite tables by kernel evaluation per version |
| C33-C35, C68 | terminal output, image | list equalities; C35, C68 false (counterexamples, exact condition) |
| C36, C37, C38, C70 | workers as a step relation | confluence by invariant; sorting |
| C39-C42, C69 | index, `Add`, `Save`/`Load` | false as stated (counterexamples), exact parts proved |
| C43-C48, C71, C76, C77 | walk, scanner, searches | induction over trees / contents |
| C49-C52, C72-C74, C78-C80 | commands | refinement to what is read of the entries |
| C53, C54 | `runes` | induction; C54 false at position 0 |
| C55-C60, C75 | glob | see below |
| C61 | clipboard selection | false: `Unsupported` is never cleared |
| C81, C82 | `Scan` with any root | the paths of the walk computed for roots with trailing slashes and `.` |
| C83-C87 | Windows clipboard against an adversarial system | invariant over the trace of calls; UTF-16 round trip by induction |
| C88, C89 | running the copy command, any step may fail | case analysis over the steps; C89 false (counterexample, exact condition) |
| C90 | a pattern whose braces are not closed | the parser's steps on the tokens; equal to the closed pattern |
| C91 | patterns of literals and stars, subjects of any bytes | occurrences of a text start at rune boundaries, so the BTree search visits all of them; induction over compileMatchers |
| C92 | `Heap.lean`: programs over arrays in shared memory, any interleaving, any pool | ownership: each goroutine owns the arrays it acquired, none of them is in a pool or owned twice; each matcher keeps to it and computes what the list model computes |
| C93 | the matchers of `Match.lean` where `none` is a panic or a loop without an end | false: counterexamples evaluated by the kernel; without braces and for plain trees: an inductive class of matchers whose rows only have parts of positive length is kept by optimising, gluing and compiling, and each of them returns; for any pattern: a decidable check of the compiled matcher (`Glob/Safe.lean`), by recursion on the matcher |
| C94 | `New`, `Add`, `match` and its goroutines as in C36; the index after a history is described in Closest/HistorySpec.lean | invariant: the index holds exactly the holders and words of the history; a fragment whose lookup crashes stays pending, so `match` cannot return; without one an execution can be continued to its end |
| C95 | a system of searches (as in C36) and calls of `Add` that share the mutex (Closest/Shared.lean) | invariants: one holder of the mutex; the index is that of the lists entered whenever nobody adds; each computed result is the contribution of its fragment in one of these indices; measure for termination |
| C96 | `Main`: os.ExpandEnv, the root main.go sets, all commands | ExpandEnv equals an inductive relation of what variables are; with it each command is the one of C50, C72, C74, C78-C80 on the store at $HOME/Documents/Vault; the whole is stated as one relation `Does` |
| C97 | as C96 with `--root` | other systems: as C96; counterexample for linux |
| C98 | `Run` of `insert`, then of any command | C52 and C97; counterexample for linux; the failure of every insert for d/n there |
| C99 | sequences of runs (`Session`) | induction; where `insert` writes is never below the store, because a name is `$HOME` with two more behind it; creating a file keeps directories and all other files |
| C100 | `insert` with the file it reads | put_lookup; counterexamples |
| C101 | sequences of runs | induction |
| C102 | `GlobSearch`: repo.GlobSearch with the matchers of package glob, whose `Match` may panic | a matcher that returns on every line makes it the search of C77; C91, C56, C93 supply such matchers, C57_wide_partial for the lines that are read; counterexample with C93_false |
| C103 | `AccuracyMutatingWords`: the draws, the mutations, the trials (Closest/Accuracy.lean); words, mutations and answers are specified in Closest/AccuracySpec.lean | the queries are exactly those specified (splitting is the unique splitting, the loop reverses, the shuffle reaches every order); the index has the identifiers below its size; induction over the trials |
| C104 | `AccuracyMutatingLetters`, likewise | as C103 |
| C105 | clipboard_unix.go with its package variables as a state machine (Clipboard/Session.lean) | invariant by induction over the operations; the list of tools is stated separately |
| C106 | cmds/generate.go `Run` with a form against a separate description of filling a form (FormGen/FormSpec.lean) | induction over the form with the number of letters, digits, symbols used so far; C05 gives every password |
| C107 | the same command as a random computation (FormGen/FormUniform.lean `prog`) | C06 for the password; the passwords that give a text are in bijection with those that give any other text (replacing letters, digits and symbols in place); the exact value by counting the texts |
| C108 | `Generator.Generate` for all integers | the two programs are equal; C05 and the invariant of C01 for the possible passwords |
| C109 | a cipher made by `New64` and any calls (`InUse64`) | invariant: the scratch words the byte methods do not fill stay zero |
| C110 | `Encode` and the drawing functions | arithmetic from C29 with the capacities of version 40; the smaller versions by bounds on their capacity |
| C111 | what JSON does to strings (Closest/Model.lean `jsonString`) | what comes out of JSON is valid UTF-8; C69 for the other direction |
| C112 | crypter/cmd/crypt.go, base64 decoding with line feeds and malformed input | invariant over the calls of a Cryptor, C12; base64 against RFC 4648 |
| C113 | parser, compiler and matchers of one term | one term compiles to one matcher; decoding the first rune against decoding all |
| C114 | glob/util/runes `LastIndex` | from the invariant of C54 |
| C115 | prefix, suffix, prefix-suffix matchers | C59_match |
| C116 | `generate` with its effects: steps of a copy command, Windows calls, printed line (Main/Clip) | composition of C10, C61, C84, C88: the password is printable ASCII, so the Windows conversion cannot panic |
| C117 | command lines of globtest and globdraw (Glob/Tool) | `strings.Split` inverse to joining; one rune per element; C55 for totality |
| C118 | goroutines that execute calls on one source, one read per step (Password/Shared) | each goroutine agrees with its call alone on the bytes it read, by induction on the schedule; termination by induction on the call and the length of the source |
| C119 | `insert` as steps (create, then read and write in pieces) of programs that run at the same time (Main/InsertSteps) | invariant over the schedule: what is written plus what is still to read is the text; counterexamples |
| C120 | `Generate` with 64-bit integers (Password/Int64) | the wrapped difference is the difference up to a multiple of 2^64; C08 |
| C121 | the four methods as programs of single loads and stores, interleaved (Crypter/Shared) | a thread's run depends only on cells no other thread writes; the block laws of C01-C04; a schedule with the wrong ciphertext |
| C122 | the exported methods store by store, up to the panic (Crypter/Panic) | induction over the loops; ciphers that differ only in scratch words are alike; C12, C13; counterexamples evaluated by the kernel |
| C123 | `Scan` on trees with links, unreadable directories and entries for which `Lstat` fails (Repo/Links) | structural induction on trees; without errors the visits are those of a plain tree, C43; an error is met exactly if something reachable is unreadable |
| C124 | bufio.Scanner with buffer and reads (Repo/Scanner) | invariant of a round, induction on the rounds to go |
| C125 | the two streams and the end of a run (Main/Streams) | case analysis; both directions against Run (C125_agrees); C78, C80, C110 for show and setenv |
| C126 | model of graphviz_internal, Graphviz and all String methods (Glob/Draw.lean) over a sequence of random numbers, formats without operands as an option (flags, widths, operand numbers not modelled); spec: statements of DOT, their text, trees with positions, Shows (names are different, nodes once with their labels, edges to the branches in order); the text determines the graph; proof by mutual induction over the matcher, and an invariant of lexer, parser and compiler for the bytes of the labels |
| C127 | model QR/AnyArgs.lean: the functions with versions, levels and masks as integers, the format word in 32-bit arithmetic; the plan lemmas are generalised to a format word and a mask function of their own; the format word depends on two bits of the level and five of the mask (proof on 32-bit words, 128 cases in the kernel) |
| C128 | model QR/WriteAny.lean: Write with an integer count and any value (OR into the last byte, then bytes), Pad with integers, Encode without Check with the byte and 64-bit arithmetic of Go; effect on the list of bits by induction over the write loop |
| C129 | Words.lean is the code on BitVec 32 (a plan is a grid of words); WordsProps shows that each step is the image of the record model's step under packing, WordsPlan that no offset reaches 2^26 and which bit is where, WordsMain states the claims about accessors, plan and code. |
| C130 | the render functions as statements over an arbitrary writer (state, answer, panic) (QR/Writer.lean); spec: offering pieces, a destination with room, a connection that loses pieces; every statement offers a fixed list of pieces, by composition; their concatenation is the picture of C33/C34 |
| C131 | the model of C01-C09, alphabets arbitrary bytes; spec: the UTF-8 encoding of a code below 256 by arithmetic; induction over the loops up to permutation; false as stated (runs evaluated by the kernel) |
| C132 | printed texts read along their form (`FormGen/Exact.lean`) | for the safe forms the filling is injective, for all others a password that repeats is constructed |
| C133 | pictures with unreadable modules (`QR/DamageSpec.lean`) | penalties of two candidates add up to twice the distance of format words (finite) and of Reed-Solomon blocks (C24); modules counted by injections into the grid |
| C134 | the number of conforming strings, by recursion on the first character | C06 (uniform) and the sum of all probabilities |
| C135 | counting of the passwords that give a text: those with the same beginning and the same first letters, digits and symbols; relabelling bijection; with --unique (FormGen/UniqueStrength.lean) direct counting of the words made of given letters, digits and symbols | C134, C106 |
| C136 | identifiers modulo 2^32; the loop splits at multiples of 2^32 into calls of Add; C94 for the resulting history | C94 |
| C137 | calls counted along the loops of Match and Index; a bound in the number of parts of the matcher, and of these in the length of the pattern; exact count for a family of patterns | - |
| C138 | expected number of draws of the decision tree, Markov's inequality, exponential tail by a union bound over the characters; number of draws along a path | - |
| C139 | simulation of the lexer (position, put-back character, queue, error) by a reader on the list of characters, induction on the number of parts | - |
| C140 | existence of a visiting order, of a ranking (C94) and of enough retries (a choice among two or more characters takes a byte); case analysis of the commands | - |
| C141 | the documented language of braces depends on the set of alternatives; C57_wide_partial for both patterns; counterexample by evaluation | - |
| C142 | steps counted along the loops of lexer.go, parser.go and compiler.go; each token read moves the position; a weight of trees that minimizeTree makes smaller, times a cubic bound for the work at one node; the weight of the tree of a pattern is linear in its length; exact sums for the lower bound | - |
| C143 | `Scan` while other programs change the store (Repo/Changing): a relation between the moment it begins, the outcome and the moment it ends, for a history of the file system; `Endless` for runs that do not end | induction on runs; a run without errors has seen a tree, to which C123 is applied; induction on the depth left for termination |
| C144 | `Save` while `Add` runs (Closest/SaveRace): `Add` as a list of single writes, `Save` as reads of each key, member and entry at moments that follow encoding/json | the writes together are `Add` (C144_writes), sets only grow, the entry of a number is written before the number; then C94's history |
| C145 | the documented language depends on the runes of the subject that are separators, by induction on patterns (Glob/SepOrder); C91, C57_wide_partial for both lists; counterexamples by evaluation | - |
| C146 | positions are those of Go's range loop; IndexRune finds the first (Glob/RuneIndex), induction over the list and the loop | - |
| C147 | model of the encoder and decoder of encoding/json on this type (Closest/Json); the decoder inverts the encoder, every value is self-delimiting, so no proper beginning is a value; sorted lists with equal members are equal | - |
| C148 | Save as a run of writes of which any may fail after any number of bytes; files are beginnings of the compressed text, which deliver beginnings of the JSON text, of which only the whole is a value (C147) | - |
| C149 | the decoder of C147 with nil maps and the nil pointer (Closest/LoadAny), Add as single assignments that panic on nil maps; induction over words and fragments, any_panics_iff for searches | - |
| C150 | patterns as texts with commas between the alternatives (Glob/Everyday); the terms they are written from meet the conditions of C57_utf8_flat_partial for every list of extensions | - |
| C151 | FindsFirst relates Matcher.index to Matcher.match without the languages of C57 (Glob/IndexSound); each Index by the position of strings.Index, LastIndex and the separators, the loop of PrefixSuffix and of AnyOf by induction | - |
| C152 | several calls of `Generate` as one random computation (Password/Several.lean) | expectations of independent computations commute (Fubini by induction on the tree); union bound; C134 |
| C153 | C06 for any weights of the draws in a commutative ring (Password/WSum); with generating functions of the byte strings rand.Int reads as weights the coefficients count the byte strings (Password/Bytes, strong induction on L); the limit by bounding the rejections |
| C154 | recurrence for the part of the byte strings that is too short (blocks of rand.Int), summed over the lengths; limits by the rejection rate; C138 for the draws; exponential tail by the moment (3/2)^bytes |
| C155 | from C94: the answers are a function of the words found and their scores; both are invariant under permutation and removal of unrelated words |
| C156 | from C94: both results are starts of rankings of the same set; sorted permutations have equal score lists |
| C157 | prefix-free glyphs are read back by a screen (C33, C34), the code by the standard reader (C31) |
| C158 | the reader of C139 reads both patterns alike (induction over the parts), and the tree determines the glob |
| C159 | the walk over the emptied tree is the walk over the tree (mutual induction); then the two runs are compared |
| C160 | the patterns of stars through lexer, parser and compiler | the stars are read in pairs; every round of minimizeMatchers glues a run of Super, so Super, or Super and Any, remains (induction on the rounds) |
| C161 | `show --qrcode` with the printed picture | C125_show gives the text that is drawn, C157 that pictures of different texts differ; trimming and cutting give back the text only if they remove nothing |
| C162 | the printed texts as functions of the store | names have exactly one slash and it comes before any newline, so no name with a newline can be two (counting slashes); the lines of grep start with M or a digit, numbers end at the first colon, lines have no newline |
| C163 | `grep` and `show` on one store | C50, C78 give the outputs of show, C72 that of grep, all in terms of the lines that are read; numbering them is injective |
| C164 | the value of an entry, which entry is picked | the value of an entry (Spec.value, in terms of fragments and counts of entries) equals the score of C09/C50; comparison of sums of naturals |
| C165 | `show` and `search` on two stores | the value of an entry depends only on the related entries (C164); C50 and C79 for both stores |
| C166 | all possible results of `show`, `search`, `list`, `grep` | C50 in one direction; in the other an order of the map with the given best match first is constructed |
| C167 | all possible results of `set-env` | C80 with the order of Words, which is any order of the categories (sorted names are unique); calls for one variable come from one block |

Glob: `Doc.lean` defines the documented language of patterns; `DocParse.lean` shows that the lexer and parser read the documented syntax (C75);
`Lang.lean` defines the language of matchers and the condition (`Good`) under which `Match` and `Index` compute it; `CompileLang`, `TreeLang` and
`GlobLang` show that compiled patterns have the documented language when the matchers the compiler chose are good; `Flat*.lean` gives a
condition on the pattern itself that ensures it.

## Properties that are false of this code

These keep their English statement; what is proved is a counterexample and, as far as possible, the exact behaviour.

* C08 negative counts are accepted: the password is longer or shorter than asked. C11 `a` may give a symbol. C62 `a` re-uses characters, and with `--mixed` two letters of the form may be `b` and `B` before their case is fixed.
* C16 `New64` stores the number of words times 8 as the state size, so `BlockSize` is wrong and the byte methods do nothing.
* C19 `Cryptor.Decrypt` decrypts a zero buffer into the input.
* C35 a text that does not fit crashes `Generate` (the error is dropped). C68 `At` ignores `Scale` and the quiet zone.
* C39 a shorter word with the same fragments wins. C40 `Add` numbers from 0 again. C41 an empty word, a negative n and one of more than 2^44 crash. C42 queries are
  case sensitive. C69 fragments that split a character are changed by JSON.
* C45, C71 `Scan` cuts paths by the length of the root as it is written, so a trailing slash loses a character of each path, and a file as root, or a
  root like `./a`, crashes. C46 a line of 65536 bytes ends the search. C48 searches open listed paths relative to the working directory.
* C49 a binary entry ends `setenv`. C51 `show --qrcode` crashes on a line shorter than the field name. C52 `insert` does not expand the root and
  follows `..`. C73 a negative number and one of more than 2^44 crash.
* C97 `--root` is overwritten. C98 `insert` fails on linux and darwin. C102 `{a*,a}` crashes a search. C104 `AccuracyMutatingLetters` may panic on every index. C100 `insert` empties an entry given as its own source.
* C54 `LastIndex` overlooks position 0. C57, C58, C59: several patterns match outside their documented language (`?` and `[!..]` match the
  empty text, `ab*ba` matches `aba`, `src/{*.go,README}` does not match `src/main.go`, a byte that is not UTF-8 counts as three bytes for `?` and classes after a star, ...). C61 the clipboard is never available.
* C117 `globtest` without `-s` uses U+FFFD as separator, so its answers differ from the library without separators.
* C119 `insert` truncates the entry before the copy, ignores the errors of the copy, and two inserts of the same entry mix their texts.
* C120 `Generate` with huge counts: the subtraction wraps around.
* C121 `Encrypt` and `Decrypt` of one cipher are not safe for concurrent use: both go through the scratch buffers of the cipher, so one goroutine can be given another's ciphertext.
* C122 `SetKey` and `SetTweak` with too short an argument panic after having stored part of it: a cipher used after `recover` has a key nobody set.
* C123 a root that is a symbolic link makes every command panic (`path[n:]` on the link itself).
* C124 `GetFileContentByLine` never calls `scanner.Err()`: a read error or a line over 64 KiB ends the file silently, and part of a line may be shown as a line.
* C125 `list` and `search` print the names with the built-in `println`: they go to standard error, so `pass list | grep x` filters nothing.
* C126 globdraw garbles patterns with a percent sign and prints invalid DOT for a quotation mark
* C127 NewPlan accepts negative masks and makes symbols that announce another mask and level (coding/qr.go:335-340, 605-606); levels that do not exist crash
* C128 Bits.Write ORs the high bits of values that do not fit into earlier bits; Pad(n) does not append n bits unless n fills the last byte
* C129 Extra.String() (coding/qr.go:280-285) returns "9", not "extra": the bound is Check although the table has an entry for Extra, so Pixel.String of a remainder pixel reads "9+0" (C129_string_case).
* C130 errors of Write are ignored when a QR code is written: the output may have a gap, and nothing is reported
* C131 password alphabets with characters outside ASCII give other characters (Ã or © for é) or invalid UTF-8
* C135 `a` in a form reuses characters that `x`, `X`, `n` and `s` show too: `xa` always prints the same letter twice (26 texts instead of 936) (C135_counterexample, C135_repeats).
* C136 A list of more than 2^32 words overwrites its own first words in the index (C136_counterexample).
* C137 Glob matching can take time exponential in its input: **b, n times **a, ** against n letters a takes 2^(n+1)-1 calls (C137_exponential); GlobSearch runs a user's pattern on every line of every file.
* C139 A NUL character in a glob pattern is treated as its end (between two parts: `*\0[` is accepted and means `*`) or dropped (inside text: `a\0b` means `ab`); U+FFFD, which is a valid character, is rejected everywhere, so that QuoteMeta does not give a pattern for every valid string; `[\-a]` is the range from the backslash to `a`, although a backslash escapes everywhere else (glob/syntax/lexer/lexer.go:90-120, 198-260).
* C143 A file that is renamed while Scan runs may be listed under both names, under none, or end the program with an error message (although it is in the store all the time); a directory that is nested deeper and deeper by another program keeps Scan running for ever.
* C144 Save does not lock: a file saved between the two writes with which Add enters a new fragment has an empty set, and every search for this fragment in the loaded index divides by zero (closestmatch.go:103), although no search crashes in the index before or after the Add; the file may also hold an index that the memory never held.
* C145 the order of the separators matters: `*?` and `?*` with the separators `/`, `.` match `./`, with `.`, `/` they do not.
* C146 LastIndexAnyRunes searches `s`, not `sub`, for a rune that is not ASCII: with first position j it returns j (not the last) if j+1 divides len(s), and otherwise panics (slice bounds out of range).
* C148 `Save` ignores the error of `gzip.Writer.Close`, which writes the last block and the checksum: with a full disk it returns nil and leaves a file that `Load` refuses; and it truncates the old file before it writes, so a crash loses the old index.
* C149 `Load` of a file that contains `null` returns a nil pointer and no error; of one that contains `{}` an index whose `Add` panics (assignment to entry in nil map).
* C151 `PrefixSuffix.Index` reports matches that `Match` refuses: for the prefix `ab` and the suffix `a` it finds `a` in `ab` (the loop does not skip the prefix).
