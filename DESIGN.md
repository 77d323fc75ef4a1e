# Formal model of VertexFusion/libcore in Lean 4

## Layout
* `properties.jsonl` – the properties C01… (generated by `tools/mkprops.py`, which only holds the texts).
* `lean/Verif/<X>/Model.lean` – model of component X, each definition citing `/repo` file and lines.
* `lean/Verif/<X>/Spec.lean` (or a `Spec` section) – small independent specification.
* `lean/Verif/<X>/Lemmas.lean` – helper lemmas.
* `lean/Verif/<X>/Props.lean` – property theorems only, with non-vacuity examples.
* `MANIFEST.json` – property → theorems. `seeded/LOG.jsonl` – mutation experiments.

## Plan per property
| id | model | proof method |
|----|-------|--------------|
| C01 | byte buffers as `List (BitVec 8)`, integers as `BitVec n`; each read/write function | bit-level extensionality, list update lemmas |
| C02 C03 | Base64 tables, encode loop, decode loop over byte lists; OOB read is a distinct outcome | induction in steps of three bytes; table facts by `decide` over the whole table |
| C04 | crc table & fold | table fact for all 256 entries by kernel `decide`, lifted by linearity; fold over append |
| C05 C06 | array of chains, threshold, rehash; arbitrary hash function | invariant + refinement to association map; iterator = flatten of chains |
| C07 | String with hash cache, `hashCode`/`constHashCode` | negation by witness, partial for fresh objects |
| C08–C12 | string = buffer (capacity list) + length | refinement to `List (BitVec 16)`; search loops by induction; non-termination witness for empty pattern |
| C13 | digit loops on 64-bit integers | strong induction on the number |
| C14 | tokenizer state machine | invariant on position; spec = splitting function |
| C15 | bubble sort with shrinking bound (as coded) | permutation + sortedness invariant, termination by the bound |
| C16 | stack | refinement to list |
| C17–C20 | decoder functions | per character lemma + induction; code-page tables by kernel `decide` over the whole table |
| C21–C24 | memory `Addr → Val`, change list, undo/redo stacks, transaction | invariants, inverse-swap lemma, induction over histories |
| C25 C26 | heap of nodes with prev/next; register pointer changes | representation predicate, refinement to list |
| C27 C28 | interleaving semantics of retain/release per thread | invariant over all schedules |
| C29–C31 | integer calendar arithmetic | `omega`, monotonicity, case analysis on months |
| C32–C34 | digit loops | strong induction |
| C35 C36 | `Int` division (C truncation) / `BitVec 32` bit tricks | `omega`, bit lemmas |
| C37 C38 | lazily evaluated diagonals / backtrace | refinement to the recursive distance; minimality against an edit-script relation |
| C39 C40 | writer state machine, Encode, entity decoding | per character induction; nesting invariant |
| C41 | URL encode / decode over bytes | per character induction |
| C42 | stream with position; out-of-buffer writes are a distinct outcome | invariant; negation witness |
| C43 | path string functions | list lemmas |
| C44 | escape/unescape, line format | induction; negation witness |
| C45 C46 | Huffman construction, bit reader, block decoding | canonical code invariants; reference encoder |
| C47 | byte layout of archive | round trip over entry list |
| C48 | setMember over the undo model | corollary |
| C49 C50 C51 C52 | byte array, arg, extents over an ordered field, string list | induction |
| C53–C63 | byte order marks, swaps, `Array`, atomic counters, locks: byte lists, interleavings | induction, invariants over all schedules |
| C64 | `Stream` reads of a given length into a buffer | byte lists, overrun as a distinct outcome |
| C65 | fractions of seconds | `omega` |
| C66 | preferences file: lines, escapes, numbers (not doubles) | per line induction, round trip |
| C67 C68 | CRC as a polynomial remainder; the archive writer as a session of calls on a file | linear algebra over `ZMod 2`; session invariant, composition with the reader of C47 |
| C51 C55 C56 | IEEE double arithmetic `Verif/Fp` (round to nearest even from exact rationals) | `Rounds` relation: error bounds, monotonicity, exactness on grids |
| C69–C71 | colours: integer conversions and blending on `BitVec 8`/`Int`, HSV in IEEE single precision `Verif/Fp32` | rounding lemmas; exhaustive facts only about the 256 values of one byte, lifted by proof |
| C72 | matrices over any number type, column-wise block | index arithmetic, folds |
| C73–C78 | the same code instantiated with exact reals `X` (`Verif/Exact/Arith.lean`) | refinement to Mathlib matrices, `linear_combination`, trigonometry |
| C79–C83 | `Geometry.cpp` over `X` | points, lines, planes, circles as sets (`Geom/Spec.lean`); foot of the perpendicular = unique closest point |
| C84 | NURBS curves over `X` | the B-spline recursion, the basis characterised by Marsden's identity, partition of unity |
| C85 | `DateFormatter`: patterns as a grammar of runs, texts and single characters | induction over the items of a pattern |
| C86 C87 | translation catalogue: bytes to a map (on top of the model of C66), choice of the file | induction over the records; case analysis |
| C88 C89 | `Charset::guess` with IEEE single and double precision, table of character sets | the rounded comparison shown exact; induction over the bytes |
| C90 C91 | `Property`, `Variant`: the union as its 64 bits, comparison with IEEE tolerance | induction over histories of calls; case analysis over editors |
| C92 C93 | reference counts of the changes: who retains what, objects as numbers with counts, pointers as cells | refinement to a history of application states; balance of counts as the invariant; `UndoRef/Off`: tracking switched off, one registration at a time, then programs |
| C94 C95 | numbers as text: `valueOf(double, precision, trunc)` over IEEE doubles; `valueOf(double)`, `toDouble`, `ConvertToDouble` with the C++ stream operators specified (%.10g, strtod) | error bounds of the two multiplications; nearest ten-digit decimal by its grid; texts as numerals with a value; round trip by nearness in both directions |
| C96 | constructors, copies, assignments and destructors of String, StringList, ByteArray, CharArray, Array, Vector, Matrix, Resource over a heap of blocks with uninitialised cells (`Own/Machine.lean`: programs over variables) | refinement of every class to values, once for all classes (`refines`): each variable owns its blocks, disjointness as invariant; for Resource count = users + lost references |
| C97 | `Thread`/`Mutex` on POSIX as instructions of a small machine (`Thread/Machine.lean`): mutex, condition variable, flag, creation and joining; programs of calls for any number of threads | invariant over all schedules: who holds the mutex is read off the rest of each program (`walk`); the history of events decides who is inside |
| C98 | the same machine | measure on the rest of the programs once the flag is down (bounded number of steps left); schedules as witnesses for the failures |
| C99 | the computation of the deadline in `sleep(int64)` on 64 bit numbers | integer arithmetic for all inputs |
| C100 | `System::log` and its settings as single actions between lock and unlock (`Log/Monitor.lean`: any object of this kind) | every schedule is equivalent to one order of whole calls; then a fold over the order |
| C101 | `File` over a specified C library (`FileIO/Stdio.lean`: names, byte lists, streams with unwritten bytes that may be handed over at any time) | simulation of every call by a byte array with a position; for crashes: every disk state is one of the byte-by-byte history |
| C102 | programs over `File` variables on the same library | invariant: live streams and open variables correspond one to one; frame conditions for two files |
| C103 | `Test`, `TestVector`: assertions as data, the counters, the loop; IEEE doubles for the tolerance | induction over tests and assertions against a plain count of failures; error bounds of one subtraction |
| C104 | `operator<<`/`operator>>` of String with `getline` specified, over the decoders of C17/C18 | induction over the bytes of a line; round trip of UTF-8; witnesses for Windows-1252 |
| C105 | `File::getTags/setTags/addTag/removeTag` on Linux over a specified extended attribute, refusals per call | simulation of a list of tags over all histories; general counterexamples (comma, 4096 bytes, unreadable) |
| C106 | `Deflater` over an arbitrary zlib specified by RFC 1950/1951; composed with the Inflater of C46 | composition with `inflate_zlib_partial`; pigeonhole argument for the loss; induction over histories for the totals |
| C107 | the directory calls of `File` over a specified tree of names; uninitialised `stat` and the system's refusals are parameters | walks over plain paths; invariant of the tree for all histories; permutation of the entries |
| C108 | corner and middle points of `Rect`, `Point`, `Size` on IEEE doubles | monotone rounding between representable bounds; exact grids; kernel-computed witnesses |
| C109 | `degToRad`, `radToDeg`, `roundFrac`, `doubleMaschineEpsilon` on IEEE doubles; the `float` variants of the last two on IEEE floats | calculus of relative errors; nearest integers; monotone rounding around 1 |
| C110 | `System::init/quit/preferences/savePreferences`, `quitCharsets`, `I18nBundle::initDefault/quitDefault` over a heap of global objects and a disk; processes one after the other, crash points | simulation of a map per bundle id, invariant relating file contents and saved settings; witnesses for the violations |
| C111 | `File::lastModified` over the `timespec` of `lstat`; `ExecPath/ExecName/ExecDir` over the bytes of `readlink`, on the string model | linear arithmetic; the UTF-8 and string search lemmas; witnesses for the violations |
| C112 | the overloads of `writeAttribute` and the typed readers of `SAXAttributes` on the XML model (C39), `double` to `float` conversion on Fp/Fp32 | the element's event is found in the events of any written document (induction on events, calls, indentation); ten digits determine a `float` by the gap between neighbouring floats |
| C113 | documents and undo managers on two heaps with reference counts, steps as numbers of changes; for the flag the undo manager of Verif/Undo with memory | refinement to documents without pointers by an ownership invariant; counting commutes with the model of C21–C24 (`ManProps.abs_…`); the flag by an invariant over the history of snapshots |
| C114 | the vertex, vector and matrix models at `F64` (bit-exact IEEE doubles, every operation rounded separately: contraction to fused multiply-add, which a compiler may be allowed to do, is not modelled) | a calculus `Ap r e a n d` (value, absolute sum, roundings, underflow) composed along each formula; sums by induction on the length; the side tests by monotonicity of rounding; the inverse from the error bounds of its cofactors and of the determinant, with the size of a determinant bounded by the permanent for every number of rows |
| C115 | the same | a calculus of exact grids `Gr k r n` (r = n / 2^k, `natAbs` bounds); determinants and inverses against Mathlib's `Matrix.det` and `⁻¹` |
| C116 | `Verif/DiffMem`: heaps of diagonals, steps and DiffDistance objects, calls of a client on them, the report of `DiffInfo::print`; `calc`, the output of `solve` and the lifetime of the compared objects are not modelled | a simulation of the lazily allocated diagonals by the functions of `Verif/Diff` (C37, C38), chains of steps in memory, and a refinement of histories to a specification without memory; leaked diagonals by an invariant |
| C117 | `Verif/DiffMem/Values`: `DiffInfo::print` for integers (bit vectors, signed overflow as `ub`), strings in the charset of the console, doubles and vertices (bit-exact `isNotEqual`; the text of a double is a parameter) | decimal numerals by induction on the number, reading back by splitting at blanks; tolerance from C55 |
| C118 | `Verif/Arrays/PtrModel`: `Array<T*>` and `FloatArray` with uninitialised cells and null pointers, bubble sort with a comparison that may be undefined | refinement to the sort of C15 (`sortLoopM_map`), stability by invariance of every filtered subsequence under the exchange |
| C119 | `Verif/UndoMem`: undo manager with steps and changes as nodes on two heaps, `mPrev`/`mNext`, `prev`/`recent`/`eldest`/`count` | refinement of the pointer level to the lists of `Verif.Undo` (separation invariant `Ok` over all steps and chains), then C22's `history`; leak count by a permutation of the live addresses |
| C120 | `Verif/Undo/Typed`: `setMember` of `Verif.Undo` with cells that are IEEE doubles and with the comparison operators of double, Vertex3 and int64 | case analysis; rounding bounds of `Verif.Fp.Val` for the small moves, induction on their number |
| C121 | `Verif/ObjCopy`: heap of objects (counter word, pool, kind of copying), heap of pools, the global pool; the book of references as specification | invariant over legal histories of any length; the violations for every reachable state |
| C122 | `Verif/Fp/Sqrt` (the IEEE root with whole numbers), `Verif/FpLen`: the length, distance and angle functions of `Verif/Vtx` and `Verif/Geom` with doubles | root proved nearest; rounding calculus of C114 for the sums; violations by monotonicity of rounding |
| C123 | `Verif/Home`: `PropertyDir`, `UserDir`, `currentDir`, `TempDir` (Linux) on the strings of `Verif/Str`, with `ExecName` of `Verif/Prog` and the paths of C43 | the system's answers (link, HOME, current directory) are arbitrary byte strings or failures |
| C124 | `Verif/DateVal`: dates as 64-bit numbers, `fromNSDate` in doubles | rounding lemmas of `Verif/Fp`, integral part of a rational |
| C125 | `Verif/Sys`: `language` with `setlocale` (POSIX order of the variables, glibc names of mixed locales), together with the choice of the file in `Verif/I18n` | environments are arbitrary functions; names are characterised by what they are put together from |
| C126 | `Verif/Sys`: `userId`, `userFullName`, `macAddress1` on arbitrary answers of the system | induction over the list of interfaces |
| C127 | `Verif/HashMem`: the table of `Verif/Hashtable` with its memory: entries and arrays on heaps, `next` pointers, iterators holding pointers | layout invariant (`Own`, `Rep`: chains of addresses, nothing shared, nothing lost) and refinement to the list model; iterator invariant `At` with what is pending |
| C128 | `Verif/UndoRef/List*`: the list operations of `UndoRef/Model` as sequences of registered pointer changes; specification: a history of sequences (`ListSpec`) | each operation is the same as registering and assigning one by one (`ListExec`, `ListOps`); relation `R` between pointers and sequences in every state of the history (`ListSeg`); simulation, induction over the actions (`ListSim*`) |
| C129 | `Verif/LinkedList/Iter*`: the list model of C25 with any number of iterators and the cursor; specification: positions in a sequence (`IterSpec`) | what a call does not touch (`IterKeep`), where each call leaves the cursor and the iterators (`IterOps`, `IterStep`), simulation (`IterProps`) |
| C130 | `Verif/Inflate/Count*`: the counters and `Reset` on the decompressor model of C46 | two runs, the second with more bytes behind the input, are related call by call (`Follows`, `Same`); cutting the input is this relation read backwards |
| C131 | `Verif/Str/Concat`: `operator+`, `+=`, `<<` on the string model of C09, with the texts of numbers of C13 and C95 | induction over the chain; the relation `Joined` says what each operand stands for |
| C132 | `Verif/Str/Model` (character functions) | the first 128 characters one by one (they are the whole domain), the others by arithmetic on codes; Lean's `Char` functions are the specification for ASCII |
| C133 | `Verif/Vtx/Model` (`Vec`) | the loops are maps over the elements; `Fin n → ℝ` with Mathlib's `⬝ᵥ` is the specification |
| C134 | `Verif/Vtx/Model` (`transLength`, `transAngle`), `Verif/Mat` | stated with the images of points under `trans`; `angleTo_spec` and `Real.Angle` |
| C135 | `Verif/Undo/Buffer` (`UndoChangeBuffer`, heap of copies) | case analysis; induction over the calls for the bytes lost |
| C136 | `Verif/Print/Model` (the loops of `operator<<` and `Matrix::print`, numbers as a parameter) | induction over the indices; reading back by splitting into lines and words |
| C137 | `Verif/Print/Model` (`Exception` on Linux on top of `Verif/Str/Concat`; not modelled: the thread id, `printStackTrace`, the macOS and Windows branches) | induction over the frames, chains of `<<` from C131 |

## How the models are built
* Every C++ function is one (or a few) Lean function, in the order of its statements, loops as structural recursion or folds
  over the index range. Each definition cites file and lines. `tools/coverage.py` prints which functions are cited.
* The result type is `Res α = Except Fault α` (`Verif/Base.lean`): `Fault.ub` is undefined behaviour (reading or writing outside
  a block, using a freed block, signed overflow, division by zero, conversion of an unrepresentable floating point number),
  `Fault.thrown` an exception. They are never confused with a value.
* Integers are `BitVec n` or `Int`/`Nat` with explicit wrap around; unbounded numbers only where the comment says so.
* Loops that need not end take a number of steps and answer `none` if it is not enough; theorems say "for all large
  enough numbers" (it ends) or "for no number" (it does not).
* Threads: a step relation with one atomic action per step, theorems over all interleavings (`Verif/RefCount`).
* Floating point: three instances of the same code.
  `Fp.F64`/`Fp32.F32` are IEEE 754 binary64/binary32 with round to nearest even, infinities, signed zero and one NaN;
  `X` is the real numbers with one extra value `nan` for everything undefined (infinities included), with the exact
  mathematical functions in place of libm.  A theorem about `X` says nothing about rounding.

## Trusted base
* **Lean's kernel** (4.33.0). No `native_decide`, `bv_decide`, no added axioms, no unfinished proofs. `decide +kernel` is only
  evaluation by the kernel.
* **Axioms**: every theorem named in `MANIFEST.json` depends on a subset of `propext`, `Classical.choice`, `Quot.sound`;
  `AXIOMS.md` (generated by `tools/axioms.py` with `#print axioms`) lists them theorem by theorem.
* **Mathlib** only as proved theorems, and its definitions of `Real`, `Matrix`, `Finset.sum`, `Real.sin` … as specification.
* **The model is a transcription by hand.** Nothing connects the C++ text with the Lean text but reading. Mistakes would show as a
  theorem about a different program; the citations are there to be checked, `seeded/LOG.jsonl` shows that the theorems
  notice edits of the model.

### What the models leave out
* Allocation never fails; memory that is not reachable any more (leaks) is observed only in C92, C93 and C96.
* `ByteArray::resize` and others that free a `new[]` block with `delete` (undefined, but harmless with every allocator
  in use) are taken as if they freed it properly, except in C96, where it is the fault it is.
* Aliasing of reference arguments is modelled where a theorem mentions it (C09, C52, C54) and otherwise excluded: for
  `circleParameterBy3Points` the centre is not one of the points, for matrices the result is not an operand.
* The hash cache of `String` exists only in `Verif/Str` (C07); other components see strings as lists of UTF-16 units. That this
  is right is the refinement proved in `Verif/Str` (C08–C12).
* IEEE: no excess precision, no fused multiply-add, no `long double`, no status flags, one NaN.
* The operating system: files are byte lists (C101), directories and kinds a finite tree without links inside of paths (C107), tags
  attributes with byte values (C105); each of these models sees only its own part. Time zones and the network do not occur.
* Threads: sequential consistency for the mutex-protected and atomic actions; no weak memory.

### Modelled, by source file
Base64, CRC, Color, Extents, Geometry, Integer, Math (without random numbers, machine epsilon), Matrix, MemoryStream, NURBS,
Point/Size/Rect, Serializer, Stack, Sort, StringTokenizer, Transform, Vertex2/3, Vector, XMLWriter, ZipFile, ZipOutputFile,
Inflater, Hashtable, LinkedList and its iterator, StringList, Array, ByteArray, String (all editing, searching, comparing and
converting functions for integers and doubles), UTF-8/UTF-16/Windows-1252/MacRoman decoders, Charset (guessing, names), Property and Variant (values and comparison), Date (calendar arithmetic), DateFormatter, I18nBundle, Diff*,
Object/AutoreleasePool (reference counting), Undo* (manager, steps, changes, and their reference counts), EditableObject, Document (transactions),
File (paths, comparison, open/close/read/write/seek/rename/remove over a specified C library; directories, kinds and tags over a specified file system), Deflater, Preferences, SAXParser/SAXAttributes, Thread and Mutex (POSIX), System::log, Test and TestVector.

### Not modelled
Exception (stack traces), PaintingBackend, the macOS bindings, System (language, user, processes), the permission calls of
File, zlib itself (specified by RFC 1950/1951), and the Windows
branches of Thread and Mutex.

## Disagreements between code and documentation found while proving
Each is a theorem with a concrete witness; the notes in `MANIFEST.json` name them. The most consequential ones:
`À` is a capital letter without a small one (C132); padded Base64 decodes with a surplus byte (C02); equal strings can have different hashes, also after an undo (C07); `indexOf` reads behind the
end, and `atIs` looks in front of the text at negative positions (C11); an empty pattern makes `replace` run for ever (C12); UTF-8 decoding reads behind malformed input (C17); undo in an
open transaction corrupts the model (C22); `swapData` without undo manager does nothing (C25); wrong weekdays before 1970
(C31); `&apos;` written but not read (C39); the value is put in front of a text with a percent sign but no placeholder (C50); `isLess(x, x)` is true exactly from 2^34 on and below -2^34, and for some tiny numbers none of less, equal and greater holds (C55);
`setHighBit` races with `retain` (C62); black cannot become CMYK and every colour becomes white (C69); adding matrices that
are not square fails (C72); the inverse of a singular matrix is reported as fine (C73); wrong eigenvalues of unsymmetric matrices
(C78); `isPointOnPlane` is never true with its default (C79); registering a block of bytes for undo always throws and leaks (C135); `transAngle` loses the sign of the angle (C134); `dotProduct` reads behind a shorter vector (C133); fitting a circle into the variable of its first point gives radius 0 (C82); extending a line to an ellipse is wrong for nearly all of them,
and `CheckAngle` can run for ever (C83); a date pattern run directly before an apostrophe is copied (C85); line breaks in
translations become a backslash and an n (C86); with signed `char` every text that is not UTF-16 is guessed to be ASCII (C88); a fresh
property does not equal itself, and equality of properties is not symmetric (C91); an undone `LinkedList::add` leaks its
element (C92); no decimal places show as `,0`, and small negative numbers lose their sign (C94); `valueOf(24.0)` is not "24.0", and
an infinite value is read back as 0 (C95); `list.append(list[i])` reads freed memory when the list is full, copies of
Nurbs, Hashtable and owning MemoryStreams are freed twice, SAXAttributes cannot be copied, assigning a Resource leaks (C96);
`start(); interrupt();` can wait for ever, and waking a thread before it sleeps is forgotten (C98); very long sleeps do not sleep (C99); a
message is cut at a character whose code ends in 00, and `lastErrorMessage` races with `log` (C100); `createNewFile` empties a file that exists, copies of an open `File` dangle, and
File objects do not close their stream (C102); `testEquals(uint64, int32)` accepts 2^64-1 for -1, and a test number that does not
exist counts as success (C103); a line of more than 255 bytes makes the stream fail (C104); tags longer than 4096 bytes together are erased by the next `addTag`, tags with a comma are split (C105); `Deflater` cuts off streams longer than the input (C106); a missing file may be a directory, depending on the stack, and `listFiles` races with others (C107); `init` after `quit` uses deleted character sets, `init` twice leaks, a crash while saving loses the settings and can break the next start (C110); `lastModified` goes backwards, `ExecDir` throws in the root directory (C111); boolean attributes are always read as false, large unsigned ones are undefined (C112); a document deletes its undo manager although a client retains it, and managers may point to destroyed documents (C113); a 2 × 2 system is solved without pivoting, which loses an equation, and the side tests miss almost parallel vectors (C114); all diagonals but one of each comparison leak, and a copied result is freed twice (C116); differences in diff reports overflow or wrap, and unchanged NaN and infinities are reported (C117); Array<T*>::sort is undefined with null pointers, FloatArray is unchecked and a NaN blocks its sorting (C118); ~UndoManager leaks an open transaction and 2^32 changes make a step count as empty (C119); setMember(Vertex3) loses small moves and accepts NaN (C120); implicit copying and assignment of objects copies reference count and mark, objects older than init are never released, objects kept over quit use a dead pool (C121); lengths of vectors below 10^-163 are zero and above 10^154 infinite, the angle of a vector with itself can be NaN (C122); without HOME settings go to the root directory, the temporary directory is the current one (C123); Cocoa times lose a millisecond, local time is UTC (C124); the language of a user with mixed locales is `LC_CTYPE=de_DE` (C125); the address of the network card is always empty (C126); a copy of a hash table is freed twice, and clearing or removing the pending key while iterating reads freed memory (C127); the element of an undone addition to a list is never destroyed (C128); removing the object an iterator delivers next makes the iterator dangle, or ends the iteration early (C129); the decompressor reads behind an input that is cut off (C130); `text + int8` writes a character instead of the number, and `text << char` turns bytes from 0x80 on into U+FF80 to U+FFFF (C131).
