#!/usr/bin/env python3
# Regenerates properties.jsonl (kept as a script only so that the long texts are readable).
import json,sys
P=[]
def p(id,title,statement,quant,why,anchors):
    P.append(dict(id=id,title=title,statement=statement,quantifier=quant,why_tests_cant=why,anchors=anchors))
p("C01","Fixed-width integers survive serialisation",
 "Writing an integer of 16, 24, 32 or 64 bits (signed or unsigned) into a buffer with a Serializer write function, big or little endian, and reading it back with the matching read function at the same offset yields the same integer; the bytes are laid out most- (resp. least-) significant first; no byte outside the written window changes.",
 "every integer of the width, every buffer, every offset inside it, both byte orders",
 "2^64 values times all buffers; the sign and shift behaviour differs per value",
 ["src/core/Serializer.cpp: serializeBEInt16..64, serializeLEInt16..64, deserialize*"])
p("C02","Base64 decoding inverts encoding",
 "For every byte array, Base64::decode(Base64::encode(data)) returns exactly data.",
 "every byte array of any length","unbounded set of inputs, three length classes mod 3 and all byte values",
 ["src/core/Base64.cpp: Base64::encode, Base64::decode"])
p("C03","Base64 encoding conforms to RFC 4648",
 "The encoded text has length 4*ceil(n/3), consists of alphabet characters followed by exactly (3 - n mod 3) mod 3 '=' characters, and the alphabet characters carry, six bits each, the bits of the data in order.",
 "every byte array","unbounded inputs",["src/core/Base64.cpp: Base64::encode"])
p("C04","CRC is the bitwise CRC-16 and can be computed incrementally",
 "CRC::crc8 with a given seed equals the bit-serial reflected CRC (polynomial 0xA001) of the bytes, and the CRC of a concatenation is the CRC of the second part seeded with the CRC of the first.",
 "every seed, every byte sequence","a table of 256 entries combined with an unbounded stream of bytes",
 ["src/core/CRC.cpp: CRC::crc8"])
p("C05","Hashtable behaves as a finite map",
 "After any history of put, remove, get and clear, get(k) returns the value of the last put of an equal key that was not removed or cleared since, or null; put and remove return the previous value; rehashing is not observable.",
 "every hash function, every operation history","unbounded histories, all collision patterns and all resize points",
 ["src/core/Hashtable.cpp: Hashtable::put, get, remove, clear, rehash, containsKey"])
p("C06","Hashtable size and iteration are exact",
 "After any history size() is the number of distinct keys present, and the key, value iterators deliver every present entry exactly once.",
 "every hash function, every operation history","unbounded histories and collision patterns",
 ["src/core/Hashtable.cpp: Hashtable::size, keys, values, HashtableIterator, HashtableEntry"])
p("C07","Equal strings have equal hash codes at any time",
 "Whatever calls were made before on either object, two String objects with equal content report the same hash code, so that a String can be found in a Hashtable by any equal String.",
 "all strings, all call histories on the two objects","depends on the hidden cache of the hash and on all mutation histories",
 ["src/core/String.cpp: String::hashCode, constHashCode, operator=, append, setCharAt, toLowerCase"])
p("C08","String comparison is a total order consistent with equality",
 "compareTo is antisymmetric, transitive and total, returns 0 exactly for equal strings and orders lexicographically by character with prefixes first; operators < and > agree with it.",
 "all pairs/triples of strings","unbounded pairs and triples",
 ["src/core/String.cpp: String::compareTo, equals, operator<, operator>, operator=="])
p("C09","String buffer edits act as sequence edits",
 "Any sequence of append, insert, setCharAt, deleteCharAt, deleteCharRangeAt on a String yields exactly the character sequence of the corresponding list edits; out-of-range indices throw and leave the string unchanged; no access falls outside the allocated capacity.",
 "all strings and edit histories","unbounded histories; growth boundaries of the buffer are crossed at data-dependent points",
 ["src/core/String.cpp: append, insert, setCharAt, deleteCharAt, deleteCharRangeAt, checkCapacity"])
p("C10","substring, trim, reverse and friends",
 "substring(b,e) returns the characters of positions b..e-1 clamped to the string; trim removes exactly the leading and trailing whitespace and is idempotent; reverse is an involution reversing the order.",
 "all strings and indices","unbounded strings",
 ["src/core/String.cpp: substring, trim, reverse"])
p("C11","String searches are exact",
 "indexOf/lastIndexOf return the smallest/greatest matching position (subject to the start index) or -1 when there is none; startsWith/endsWith hold exactly when the string has the prefix/suffix; atIs/atIsIgnoreCase hold exactly when the other string stands at the position (up to case).",
 "all haystacks, needles and start indices","unbounded strings; overlapping partial matches",
 ["src/core/String.cpp: indexOf, lastIndexOf, startsWith, endsWith, atIs, atIsIgnoreCase, count"])
p("C12","String replace replaces all occurrences and terminates",
 "replace(old,new) terminates and returns the string in which each non-overlapping occurrence of old, found left to right, is replaced by new.",
 "all strings, patterns and replacements","termination for every input cannot be tested",
 ["src/core/String.cpp: String::replace(String,String)"])
p("C13","Integer to text and back",
 "String::valueOf(n).toInt() == n for every 64-bit integer, and the text is the canonical decimal numeral.",
 "every 64-bit integer","2^64 inputs",
 ["src/core/String.cpp: String::valueOf(int64), String::toInt"])
p("C14","StringTokenizer loses nothing",
 "With delimiters returned, the concatenation of all tokens is the input; without, the tokens are exactly the maximal non-empty delimiter-free runs, in order; hasNext is true exactly when next does not throw.",
 "all inputs and delimiter sets","unbounded strings and delimiter placements",
 ["src/core/StringTokenizer.cpp"])
p("C15","Sorting a container sorts it",
 "sort() on ByteArray, the Array template, FloatArray and StringList terminates and leaves an ascending permutation of the original elements.",
 "all arrays","unbounded permutations",
 ["src/core/ByteArray.cpp: ByteArray::sort","include/core/Array.h: Array::sort","src/core/StringList.cpp: StringList::sort"])
p("C16","Stack is last-in first-out",
 "Any history of push, pop, top, reverse and clear on Stack acts as on a list with the end on top; size is the number of pushed and not popped elements.",
 "all histories","unbounded histories",["include/core/Stack.h"])
p("C17","UTF-8 round trip",
 "Encoding a String as UTF-8 and decoding the bytes as UTF-8 yields the same String; the bytes are those the UTF-8 standard prescribes for characters up to U+FFFF.",
 "all strings of 16-bit characters without NUL","65536^n strings",
 ["src/core/UTF8Decoder.cpp: encode, decode, allocateDecodedBuffer"])
p("C18","UTF-16 round trip",
 "Encoding a String with the UTF-16BE (or LE) charset and decoding with the same charset yields the same String.",
 "all strings without NUL","65536^n strings",["src/core/UTF16Decoder.cpp"])
p("C19","Windows-1252 round trip",
 "Decoding bytes as Windows-1252 and encoding them again reproduces every defined byte.",
 "all byte strings of defined, nonzero bytes","unbounded byte strings",["src/core/Windows1252Decoder.cpp"])
p("C20","Mac Roman round trip",
 "Decoding bytes as Mac Roman and encoding them again reproduces the bytes.",
 "all byte strings of nonzero bytes","unbounded byte strings",["src/core/MacRomanDecoder.cpp"])
p("C21","Undo restores the state before the step",
 "Whatever member changes are registered with the UndoManager within a step, undoing that step restores every registered member to the value it had before the step and leaves all other memory alone; redo then reinstates the values after it.",
 "all sequences of (possibly repeated, overlapping) member changes of all data types","unbounded histories, repeated writes to one member",
 ["src/core/UndoManager.cpp: registerChange, undo, redo","src/core/UndoStep.cpp","src/core/UndoChange.cpp"])
p("C22","Undo history is a cursor over the sequence of steps",
 "After closing n steps, undo k times then redo k times is the identity; undo/redo succeed exactly when steps are available and no step is open; a new change discards the redoable steps.",
 "all histories of changes, closes, undos and redos","unbounded histories",
 ["src/core/UndoManager.cpp: undo, redo, close, hasOpenUndoStep, clearStacks"])
p("C23","Transaction rollback is all-or-nothing",
 "Rolling back a transaction restores all members registered in it to their values at openTransaction and leaves undo stacks as they were; committing keeps the values and makes them one part of the open undo step.",
 "all sequences of changes inside a transaction and all prior histories","unbounded histories",
 ["src/core/UndoManager.cpp: openTransaction, commitTransaction, rollbackTransaction, closeTransaction"])
p("C24","A failing status forces rollback",
 "If any status other than eOK/eNotChanged is registered inside a transaction, at any nesting depth, closing the outermost level rolls everything back; otherwise it commits.",
 "all nestings and status sequences","unbounded nesting",
 ["src/core/UndoManager.cpp: registerTransactionStatus, closeTransaction"])
p("C25","LinkedList is a sequence",
 "Any history of add, addBefore, remove, swapData, clear, first, last, size and iteration on a LinkedList returns what the same calls return on a sequence, without an access to a freed element; removing a missing object reports eNotFound without a change, and every element that left the list has been freed.",
 "all histories","unbounded histories of pointer manipulations",
 ["src/core/LinkedList.cpp"])
p("C26","Undoing list edits restores the list",
 "If list edits are made under an UndoManager, undo restores exactly the sequence before the step and redo the one after.",
 "all lists and edits","unbounded histories, pointer-level effects",
 ["src/core/LinkedList.cpp","src/core/UndoManager.cpp"])
p("C27","Reference counting destroys exactly once",
 "An Object is destroyed exactly when the number of release calls reaches the number of retain calls plus one, never earlier and never twice, for any interleaving of threads each respecting ownership.",
 "all interleavings of retain/release","schedules cannot be enumerated by tests",
 ["src/core/Object.cpp: retain, release, referenceCount"])
p("C28","Autorelease pool releases each registration once",
 "Draining the pool releases every object exactly as often as it was added since the last drain; objects retained elsewhere survive.",
 "all histories of add and drain","unbounded histories",
 ["src/core/AutoreleasePool.cpp"])
p("C29","Date components round trip",
 "Constructing a Date from valid year, month, day, hour, minute, second, millisecond and reading the components back returns the same values; every time stamp is reconstructed from its components.",
 "all valid component tuples / all time stamps","unbounded years, leap-year rules",
 ["src/core/Date.cpp: Date(...), year, month, day, hour, minute, second, millisecond, makeDay, makeTime"])
p("C30","Calendar arithmetic is the Gregorian calendar",
 "The day number of the first of January of year y and the month lengths used are those of the proleptic Gregorian calendar: consecutive days have consecutive dates.",
 "all days","unbounded range of days",
 ["src/core/Date.cpp: daysInYear, dayFromYear, yearFromTime, monthFromTime, dateFromTime"])
p("C31","Weekday",
 "weekday advances cyclically by one each day and 1970-01-01 is a Thursday, for every date.",
 "all days before and after 1970","unbounded range of days",["src/core/Date.cpp: weekDay"])
p("C32","Hexadecimal round trip",
 "Integer::fromHex(Integer::toHexString(n)) == n.",
 "every 64-bit integer","2^64 values",["src/core/Integer.cpp: toHexString, fromHexString"])
p("C33","Roman numerals",
 "Integer::toRomanString(n) for n>0 evaluates, under the standard additive/subtractive reading, to n.",
 "every positive integer","unbounded n",["src/core/Integer.cpp: toRomanString"])
p("C34","Alphabetic numbering",
 "Integer::toLatinAlphabetString numbers 1,2,... as A..Z,AA,AB,.. using letters only, and different numbers get different strings.",
 "every positive integer","unbounded n",["src/core/Integer.cpp: toLatinAlphabetString"])
p("C35","Floor division and modulus",
 "For b>0, a = b*divFloor(a,b)+modFloor(a,b) and 0<=modFloor(a,b)<b.",
 "all integers a, b>0","all sign combinations of 64-bit values",["src/core/Math.cpp: divFloor, modFloor"])
p("C36","Power of two helpers",
 "isPowerOf2 holds exactly for powers of two; ceilPowerOf2(x) is the smallest power of two not below x.",
 "every 32-bit unsigned integer","2^32 inputs",["src/core/Math.cpp: isPowerOf2, ceilPowerOf2"])
p("C37","Diff computes the edit distance",
 "DiffDistance::solve reports (as distance) the minimal number of insertions, deletions and replacements that turn the first sequence into the second.",
 "all pairs of sequences","unbounded pairs; the algorithm evaluates the matrix lazily along diagonals",
 ["src/core/Diff.cpp","src/core/DiffDiag.cpp","src/core/DiffDistance.cpp"])
p("C38","Diff edit script is valid",
 "The sequence of operations reported transforms the first sequence into the second, reports the right objects, and contains as many operations as the distance.",
 "all pairs of sequences","unbounded pairs",
 ["src/core/DiffBacktrace.cpp","src/core/DiffInfo.cpp","src/core/DiffDiag.cpp"])
p("C39","XML text written is text read",
 "Every text content or attribute value written through XMLWriter is delivered unchanged by SAXParser.",
 "all strings","unbounded strings with all mixes of markup characters",
 ["src/core/XMLWriter.cpp: Encode","src/core/SAXParser.cpp: parseTagString, entity decoding"])
p("C40","XMLWriter output is properly nested",
 "Any sequence of writer calls with balanced start/end elements yields a document whose tags are balanced and whose markup characters in data are escaped.",
 "all writer call sequences","unbounded call sequences",["src/core/XMLWriter.cpp"])
p("C41","URL encoding round trip",
 "String::URLDecode(String::URLEncode(s)) == s.",
 "all strings","unbounded strings",["src/core/String.cpp: URLEncode, URLDecode"])
p("C42","MemoryStream stays inside its buffer",
 "No history of read, write, seek, move and reset touches memory outside the buffer; a read returns the bytes last written to that position; position stays within bounds.",
 "all operation histories","unbounded histories and boundary positions",["src/core/MemoryStream.cpp"])
p("C43","File path normalisation",
 "A normalised path contains no duplicate and no trailing separators, normalising twice is the same as once, and name/parent recompose to the path.",
 "all path strings","unbounded strings",["src/core/File.cpp: File::normalize, name, parent, extension"])
p("C44","Preferences survive saving and loading",
 "Every key/value pair stored in Preferences is found unchanged after save and load.",
 "all keys and values","unbounded strings, escaping interplay",["src/core/Preferences.cpp"])
p("C45","Huffman codes built by the Inflater are canonical and prefix free",
 "From a list of code lengths satisfying the Kraft inequality the inflater builds exactly the canonical prefix-free code of RFC 1951 and decodes every code word to its symbol.",
 "all code-length lists","unbounded set of code-length lists",["src/core/Inflater.cpp: huffmanCodes, createTree, HuffmanTree"])
p("C46","Inflater decodes valid streams",
 "For every byte string, inflating any valid deflate stream of it (any sequence of stored, fixed-Huffman and dynamic-Huffman blocks, raw or with a zlib header) yields exactly that byte string and reports the end of the stream and the amounts consumed and produced; a wrong zlib header is rejected.",
 "all byte strings and all block divisions / back references","unbounded inputs",["src/core/Inflater.cpp"])
p("C47","Every ZIP archive can be read",
 "ZipFile::open lists the members of every well-formed ZIP archive (records at any place, stored or deflated members, with or without an archive comment) in the order of the central directory with their names, comments and sizes; entry(name) is the first member of that name or null; the stream of an entry delivers exactly the data of the member; and what is no archive is rejected with an exception instead of being read outside its buffers.",
 "all byte strings, all member lists, all layouts the format allows","archives are unbounded and a corpus shows only some layouts",["src/core/ZipFile.cpp: ZipFile::open, entry, entryCount, stream"])
p("C48","setMember changes exactly once and validates",
 "EditableObject::setMember leaves member and undo history untouched when the value is equal (eNotChanged) or outside the permitted range (eInvalidInput), otherwise sets it and registers one change that undo reverts.",
 "all values, ranges and histories","unbounded histories",["src/core/EditableObject.cpp"])
p("C49","ByteArray edits are list edits",
 "Construction, get/set, fill, replacing a value, replacing a range, resize, sort, assignment and comparison of ByteArray act as the corresponding list operations; bytes gained by growing are zero; the content is followed by a NUL byte.",
 "all arrays and edit histories","unbounded histories",["include/core/ByteArray.h, src/core/ByteArray.cpp"])
p("C50","Argument substitution",
 "arg() replaces the lowest-numbered %n placeholder of the pattern by the value and leaves the other text unchanged.",
 "all patterns and values","unbounded strings",["src/core/String.cpp: argIndicies, arg"])
p("C51","Extents and rectangles form bounding boxes",
 "Adding points to Extents, directly or by merging other extents, yields the smallest box containing all added points, independent of order; Rect union contains both rectangles and is the smallest such rectangle, intersection contains exactly the common points, setting an edge moves that edge only, normalize keeps the covered area.",
 "all point sets/rectangles","unbounded point sets",["src/core/Extents.cpp","src/core/Rect.cpp"])
p("C52","StringList is a list; join and split agree",
 "append/remove/get/contains on StringList act as on a list; joining parts that contain no separator and splitting again returns the non-empty parts.",
 "all lists and histories","unbounded histories",["src/core/StringList.cpp","src/core/String.cpp: split"])
p("C53","CRC detects burst errors",
 "Two messages of equal length that differ only within a window of 16 consecutive bits (the bits of each byte counted from the lowest) have different CRC values, for every seed.",
 "every seed, every pair of messages, every burst position","unbounded messages and positions",
 ["src/core/CRC.cpp: CRC::crc8"])
p("C54","swap exchanges two values",
 "jm::swap(a,b) leaves a with the old value of b and b with the old value of a, whichever two objects are passed.",
 "all pairs of values, including both references naming one object","aliasing and 2^64 value pairs",
 ["include/core/Math.h, src/core/Math.cpp: swap"])
p("C55","Tolerant comparisons are consistent",
 "Exactly one of isEqual, isLess, isGreater holds for any two numbers at a positive tolerance; the or-equal variants are their unions; isEqual is symmetric.",
 "all numbers and tolerances","continuum of inputs",["src/core/Math.cpp: isEqual, isLess, isGreater, isLessOrEqual, isGreaterOrEqual"])
p("C56","Rounding, sign, interpolation and random range",
 "round returns a nearest multiple; sign is -1, 0, 1 as the number is negative, zero, positive; interpolation hits its end points and stays between them; random(min,max) lies in [min,max].",
 "all arguments and every value of the random generator","continuum of inputs and all generator states",
 ["src/core/Math.cpp: round, sign, interpolateLinear, random"])
p("C57","Natural string order is a consistent order",
 "compareFancyTo is reflexive, antisymmetric in sign and transitive, so it can be used to sort; runs of digits compare by their number, other characters by their code.",
 "all pairs and triples of strings","unbounded strings",["src/core/String.cpp: compareFancyTo"])
p("C58","Array access is bounds-checked",
 "Array::get and Array::set work on the addressed element for every index inside the array and throw for every other index, without effect; a copy holds the same elements.",
 "all arrays and all 64-bit indices","unbounded sizes and indices",["include/core/Array.h"])
p("C59","Date text is ISO 8601 and sorts like the time",
 "toString yields YYYY-MM-DDTHH:MM:SS.mmmZ with the date's components, different dates yield different texts and compareTo orders dates by time stamp.",
 "all time stamps in the years 0 to 9999 / all pairs of dates","10^14 time stamps",["src/core/Date.cpp: toString, compareTo"])
p("C60","Undo and redo notify the touched objects and the document",
 "undo and redo mark every object whose member is swapped as needing regeneration and mark the document as changed; closing an open step marks the document changed, closing nothing changes nothing.",
 "all steps and states","must hold for every sequence of registrations",
 ["src/core/UndoManager.cpp: undo, redo, close","src/core/UndoChange.cpp: UndoChange::swap"])
p("C61","Reference counting calls always finish",
 "In every interleaving in which some thread is inside retain, release, autorelease, drain or a destructor, at least one of these threads can go on: the mutexes of objects and pool never block all of them.",
 "all interleavings, any number of threads","deadlocks need particular schedules",
 ["src/core/Object.cpp: retain, release, autorelease","src/core/AutoreleasePool.cpp: add, drain"])
p("C62","The mark bit is independent of the count",
 "setHighBit never changes referenceCount and highBit reads back what was set last, whatever other threads do with retain and release.",
 "all counter values and interleavings","data races",
 ["src/core/Object.cpp: setHighBit, highBit, referenceCount"])
p("C63","Files are ordered: directories first, then by path",
 "File::compareTo is a total order: a directory comes before every file that is none, and two files of the same kind compare as their paths.",
 "all files and every answer of the file system","transitivity over all triples",["src/core/File.cpp: File::compareTo"])
p("C64","readFully is independent of short reads",
 "However the operating system splits the data into short reads, readFully delivers the first bytes of the stream in order, up to the requested number or the end of the stream, returns how many it delivered and leaves the rest of the buffer alone.",
 "all schedules of short reads, all lengths and buffers","the schedule is chosen by the system",["src/core/File.cpp: File::readFully, read"])
p("C65","lastModified reports the time of the file system in milliseconds",
 "lastModified() is the modification time of the file rounded down to milliseconds; a file changed later never has an earlier time.",
 "all time stamps","the fraction of the second is chosen by the system",["src/core/File.cpp: File::lastModified"])
p("C66","Preferences are a map with typed access","Every history of setValue, hasValue, value, valueInt, valueDouble and valueBool on a Preferences object answers as a map from keys to values: the last value stored for a key is returned, integers and booleans come back as stored, doubles to within ten digits, missing keys yield the default; destroying the object deletes every stored string exactly once.","all histories, keys, values and hash functions","unbounded histories and values; ownership of heap strings",["src/core/Preferences.cpp: setValue, value, valueInt, valueDouble, valueBool, hasValue, ~Preferences"])
p("C67","The checksum in a written archive is CRC-32","The checksum ZipOutputFile computes for the bytes of an entry is CRC-32 (ISO 3309): the complement of the remainder of the message, with its first 32 bits inverted and 32 zero bits appended, on division by the standard generator; therefore two messages of equal length share it exactly when the generator divides their difference, and damage confined to 32 consecutive bits is always visible.","every byte string, every pair of byte strings that differ in at most 32 consecutive bits","a test compares a few check values; the claim is about every message and every burst",["src/core/ZipOutputFile.cpp: CRC32"])
p("C68","Zip output round trip","Whatever entries a client puts into a ZipOutputFile, in however many write() calls or from a file, the file afterwards is exactly the archive of these entries (local headers with sizes and CRC, unchanged data, central directory, end record), and ZipFile lists the same names, extra texts and comments in the same order and delivers the same bytes for each. Broken when the file existed and was longer (it is not truncated: the old directory is found) and with 65536 entries (none is found).","every list of entries with any texts and data, every division into write() calls, every previous content of the file, every content of fresh memory","the sequences of entries and the divisions into calls are unbounded",["src/core/ZipOutputFile.cpp: ZipOutputFile::open, putNextEntry, write, closeEntry, writeAndClose, close","src/core/ZipFile.cpp: ZipFile::open, stream"])
p("C69","Colour modes and conversions",
  "A colour holds the components it was constructed with or that were set; two colours are equal exactly if mode, the components of that mode and alpha are equal; adding and subtracting a colour of the same mode are inverse. Converting to RGB keeps alpha, maps grey to three equal components and inks to 255 minus ink and key; converting twice changes nothing. A grey converted to CMYK and to RGB is the same grey. RGB to CMYK gives the inks 255(max-x)/max and the key 255-max, rounded down; the grey of an RGB colour is its weighted brightness. A colour is white exactly if its RGB conversion is 255,255,255.",
  "all colours of all modes, all component values",
  "256^4 colours in three modes, single-precision rounding in the conversions: tests sample a handful.",
  ["src/core/Color.cpp: Color::toRgb, toCmyk, toGreyScale, isWhite, operator==, operator+, operator-", "include/core/Color.h"])
p("C70","Blending and interpolating colours",
  "Blending an opaque colour over an opaque one with a given share yields components between both colours, rounded down; the resulting alpha of two translucent colours is a+(255-a)b/255 and at least each of both; blending over an opaque background is defined and gives the weighted mean; over a translucent background the components are the ones of both colours weighted by their alphas, divided by the resulting alpha; blending a fully transparent foreground keeps the background, an opaque one hides it; interpolation by a part between 0 and 1 is defined, stays between both colours and is exact at both ends.",
  "all pairs of colours, all alpha values, all single-precision parts between 0 and 1",
  "The results depend on single-precision rounding of every combination of components.",
  ["src/core/Color.cpp: Color::BlendColors, Color::interpolate"])
p("C71","Hue, saturation and value",
  "Hue, saturation and value of every colour are in their documented ranges (0 to below 360, 0 to 1, 0 to 1) and are those of the HSV model up to rounding; FromHsv is defined for every hue from 0 to 360 and every other argument from 0 to 1 and yields the components of the HSV model rounded down; converting a colour to HSV and back yields each component or one less.",
  "all colours; all single-precision arguments in the documented ranges",
  "The sectors meet at hues that rounding can miss; 16.7 million colours and 2^120 argument tuples.",
  ["src/core/Color.cpp: Color::hsvModel, Color::FromHsv"])
p("C72","Matrices of every size: cells, transposition, sums and products",
  "A matrix object holds the cells that were set, whatever its size: set and add change one cell only, zeros, diag and insert change exactly the cells they name, transposing exchanges rows and columns and transposing twice gives the matrix back, the sum, difference, multiple and product are those of the cells (the product adds from left to right), copies are equal, and sizes that do not fit are rejected with an exception.",
  "all sizes, all cells, all kinds of numbers (doubles included)",
  "Sizes are unbounded, and the index arithmetic of a column-wise block must be right for every rectangular shape.",
  ["src/core/Matrix.cpp: Matrix::Matrix, set, get, add, zeros, diag, transpose, insert, operator+, operator-, operator*, operator/", "include/core/Matrix.h"])
p("C73","Matrices in exact arithmetic: determinant, inverse, trace and norms",
  "Calculated without rounding, det is the determinant and inverse the inverse of every square matrix up to 4 x 4 (eOK exactly if it is the inverse), other sizes are rejected with a status other than eOK and change nothing; the product is associative; trace, both norms and nonZeroElementCount are what their names say for every size.",
  "all real matrices of all sizes",
  "A continuum of matrices; the cofactor expansions have up to 24 products of which a wrong sign shows only for special matrices.",
  ["src/core/Matrix.cpp: Matrix::det, inverse, trace, norm, nonZeroElementCount, operator*"])
p("C74","Transformation matrices",
  "Calculated without rounding, a 4 x 4 matrix transforms a point by its affine map, products of matrices with the last row 0 0 0 1 act one after the other, moving adds the vector, scaling multiplies about the origin or the given point, mirroring at a plane with unit normal is the reflection (an isometry, its own inverse, fixing exactly the plane), rotation around an axis with unit direction keeps lengths and angles, fixes the axis and adds up its angles.",
  "all real points, vectors, factors and angles",
  "A continuum of arguments; rotation formulas agree with wrong ones for many special axes.",
  ["src/core/Matrix.cpp: Matrix::trans, initMoving, initScaling, initMirroring, initRotation, initRotationZ, generate3x3RotationMatrix"])
p("C75","Vectors in space",
  "Calculated without rounding, the cross product is perpendicular to both factors with the length of the parallelogram and changes sign with the order; the length obeys the triangle inequality; normalized gives the unit vector of the same direction; angleTo is the angle in [0, pi]; rotating keeps lengths and is undone by the opposite angle; == and != are opposites and compare with the tolerance 1E-6, as do the tests for null, perpendicular, parallel and linearly independent vectors; biggest is the largest component; dividing by a number undoes multiplying by it; scale multiplies the components like the matrix for scaling; isValid is false exactly if a component is NaN.",
  "all real vectors",
  "A continuum of arguments.",
  ["src/core/Vertex3.cpp: crossProduct, dotProduct, abs, normalized, angleTo, rotate, isCollinear, isOrthogonal, isNull, biggest, operator==, operator!=, isLinearIndependent"])
p("C76","Vectors in the plane and systems of two linear equations",
  "Calculated without rounding, turning a vector by angleTo gives the direction of the other one, and the angle is positive exactly if the other one lies to the left; rotated keeps lengths and adds up angles; isRightTo and isLeftTo are the signs of the area; solveLinearSystem finds the only solution of every regular system; dividing by a number undoes multiplying by it; scale multiplies the components; isValid is false exactly if a component is NaN.",
  "all real vectors and all regular systems",
  "A continuum of arguments; the choice of the pivot decides.",
  ["src/core/Vertex2.cpp: rotated, angleTo, isRightTo, isLeftTo, crossProduct, normalized", "src/core/Vertex2.cpp: solveLinearSystem"])
p("C77","Rotations between vectors and object coordinate systems",
  "Calculated without rounding, the matrix made from two vectors is a rotation that turns the direction of the first to that of the second; for every unit extrusion vector the object coordinate system is right-handed and orthonormal with that vector as z axis and the x axis of the arbitrary axis algorithm, converting world to object coordinates and back gives the point back, and the matrix of initWcs converts points like ocsToWcs.",
  "all real vectors, all unit extrusions",
  "A continuum of arguments with special cases (parallel, opposite, nearly vertical).",
  ["src/core/Matrix.cpp: generate3x3RotationMatrix(u, v), initWcs", "src/core/Transform.cpp: wcsToOcs, ocsToWcs"])
p("C78","Eigenvalues",
  "Calculated without rounding, eigen returns all eigenvalues of a square matrix of one to three rows with their multiplicities, NaN where there is no real one, and rejects other matrices with an exception.",
  "all real matrices of one to three rows; all other sizes for the rejection",
  "A continuum of matrices; the trigonometric formula for three rows agrees with the truth exactly for symmetric matrices, which no sample shows.",
  ["src/core/Matrix.cpp: Matrix::eigen, Matrix::trace, Matrix::det"])
p("C79","Feet of perpendiculars, lines in planes and distances in space",
  "Calculated without rounding, the closest point on a plane, line or segment is the unique point with the smallest distance and the distance functions return that distance; a line and a plane that are not parallel have exactly the intersection point that is returned, invalid is returned otherwise; with extend = false only points between the ends count; a point is on a line or plane exactly if its distance is below the tolerance.",
  "all real points and direction vectors",
  "A continuum of positions; tolerances and degenerate vectors form thin sets that samples miss.",
  ["src/core/Geometry.cpp: intersectionPointLineAndPlane, closestPointOnPlane, closestPointOnLine, distancePointToPlane, distancePointToLine, isSamePoint, isPointOnLine, isPointOnPlane"])
p("C80","Two lines in space",
  "Calculated without rounding, two lines that are not parallel have a unique closest pair of points, of which the one on the second line is returned; the distance of two lines is the smallest distance of any two of their points, and the intersection point is returned exactly if they meet.",
  "all pairs of lines given by real points and direction vectors",
  "A continuum of positions; the formulas divide by the sine of the angle, and lines that are almost parallel are separate cases.",
  ["src/core/Geometry.cpp: closestPointOnLine (two lines), distanceLineToLine, intersectionPoint"])
p("C81","Lines and segments in the plane",
  "Calculated without rounding, the closest point and the intersection point of lines in the plane are right, lines that are parallel have no intersection point, two segments cross exactly if they have a common point, and a line is extended to the first segment that it hits.",
  "all real points and directions in the plane",
  "A continuum of positions with many degenerate cases (end points that touch, overlapping segments).",
  ["src/core/Geometry.cpp: closestPointOnLine, intersectionPoint, crosses, distancePointToPoint, extensionPointOnLine"])
p("C82","Circles",
  "Calculated without rounding, the intersection points of two circles in the plane are exactly their common points; the circle through three points passes through all three, collinear points are rejected; the closest point on a circle is the closest one; the angle bisector halves the angle; the circle that touches two lines has the given radius and touches both.",
  "all real circles, points and lines",
  "A continuum of positions with many special cases (touching, concentric, containing circles).",
  ["src/core/Geometry.cpp: intersectionPointsOfCircles, circleParameterBy3Points, closestPointOnCircle, angleBisector, circleParameterBy2TangentsRadius"])
p("C83","Arcs and rays",
  "Calculated without rounding, checkAngle tells whether an angle lies on the arc between two angles counted counterclockwise, whatever multiples of a full turn were added; a line is extended to the first point where its ray hits the arc or ellipse, and invalid is returned if it hits none.  The calls end for every argument.",
  "all real angles, points, arcs and ellipses",
  "A continuum of arguments; loops that normalise angles end for every sample but not for every double.",
  ["src/core/Geometry.cpp: checkAngle, pqCheck, extensionPointOnArc, extensionPointOnEllipse"])
p("C84","NURBS curves",
  "Calculated without rounding, point(t) is the point of the rational B-spline curve for every parameter from start() to end(): the mean of the control points weighted by the B-splines (those determined by Marsden's identity and their supports). It lies in the convex hull of degree + 1 control points, moves with affine transformations of the control points, starts in the first control point if the first knots coincide, and is the rational Bezier curve for the knots 0..0 1..1. A degree of 0 is rejected.",
  "all degrees, all numbers of control points, all real knots, weights, points and parameters",
  "Recursion over the degree, a continuum of knots and parameters; knots that coincide and the end of the domain are special.",
  ["src/core/NURBS.cpp: Nurbs::Nurbs, N, R, point, start, end, knot", "include/core/Nurbs.h"])
p("C85","Formatting dates",
  "DateFormatter::format(pattern, date) is the text of the parts of the pattern, one after the other: a run of y, M, d, E, H, m, s or S gives that part of the date (two letters: two digits), text in apostrophes and all other characters appear unchanged. Formatting succeeds for every pattern.",
  "all pattern texts of any length, all time stamps, every translation of the names of the months",
  "Patterns are arbitrary texts; what a character means depends on the apostrophes and the run before it.",
  ["src/core/DateFormatter.cpp: DateFormatter::DateFormatter, format, Pattern::Pattern, Pattern::appendPattern", "include/core/Date.h: DateFormatter"])
p("C86","Translations from a catalogue",
  "After appendMo() of a catalogue in the GNU MO format, translate(key) is the translation which the catalogue gives for the key, and the key itself if there is none (or an empty one). Another or damaged file changes nothing.",
  "all catalogue files with any number of texts of any length, all keys",
  "The catalogues are produced by other programs; number, length and position of the texts are read from the file.",
  ["src/core/I18nBundle.cpp: I18nBundle::appendMo, I18nBundle::translate", "src/core/Preferences.cpp: Preferences::setValue, Preferences::value"])
p("C87","Choice of the translation file",
  "transFileByBundleId(name, language) finds the first file that exists among: name with language and region, language and region, name with language, language. Without a language that of the system counts; language and region may be separated by - or _.",
  "all sets of existing files, all names and languages of any length",
  "The result depends on the files of the installation and the language of the user.",
  ["src/core/I18nBundle.cpp: I18nBundle::transFileByBundleId", "src/core/Resource.cpp: Resource::exists"])
p("C88","Guessing the character set",
  "Charset::guess(stream) recognises the three byte order marks, UTF-16 text of Latin letters without a mark with its byte order, and ASCII; anything else is the default of the operating system (Windows: MacRoman if a byte occurs which Windows-1252 does not define).",
  "all byte streams of any length, all operating systems, signed and unsigned char",
  "Streams are arbitrary; the share of zero bytes is computed and compared with rounded floating point numbers.",
  ["src/core/Charset.cpp: Charset::guess", "include/core/Charset.h: Charset::guess"])
p("C89","Character sets by name",
  "Charset::forName(name) is the character set with this name, or null if there is none. Every name which guess() answers is known.",
  "all names, all byte streams",
  "The names are arbitrary texts.",
  ["src/core/Charset.cpp: Charset::forName, Charset::hasName, gCharsets"])
p("C90","Values of properties",
  "A Property answers the number, truth value or text which was set last, whatever was set before; type() names the last call. Variants and their copies answer what they were made of.",
  "all sequences of set calls of any length, all values",
  "Numbers, truth values and texts share memory; what is read depends on the whole history of calls.",
  ["src/core/Property.cpp: Property::setIntegerValue, setDoubleValue, setBoolValue, setStringValue, setUnitValue and the getters", "include/core/Property.h: Variant"])
p("C91","Comparing properties",
  "isValueEquals() is true exactly if two properties have the same value; after setValue() they have. operator== is an equivalence: same id, same editor and same content of the editor.",
  "all pairs of properties with any histories of set calls, all editors",
  "The answer depends on bytes that earlier calls left behind and on the type of one of the two.",
  ["src/core/Property.cpp: Property::isValueEquals, Property::setValue, operator=="])
p("C92","The undo history keeps objects alive exactly as long as needed",
  "If an application backs every stored pointer with a registered reference and releases only what it holds, then no call on the manager uses a destroyed object, no stored pointer dangles after any undo, redo or rollback, and an object is destroyed as soon as neither the application nor the history refers to it; clearStacks and destroying the manager give up all references. Adding to and removing from a LinkedList keep to this.",
  "all sequences of creating, retaining and releasing objects, storing pointers, undo, redo, close, clearing, nested transactions",
  "Use after free and leaks depend on the whole history of changes, most of which are discarded much later.",
  ["src/core/UndoChange.cpp: UndoChangeObjectRef, UndoObjectRelease, UndoChange::~UndoChange", "src/core/UndoManager.cpp: registerChange, registerRelease, registerRetain, undo, redo, clearStacks, ~UndoManager", "src/core/LinkedList.cpp: add, remove"])
p("C93","Undo restores pointers and references",
  "undo() puts back all pointers and all references that were registered since the step before, redo() the later ones; a rollback those of the transaction. References the application did not register are left alone.",
  "all sequences of actions as in C92",
  "Every step holds many changes whose order matters; counts and pointers must agree at every point of every history.",
  ["src/core/UndoChange.cpp: UndoChangeObjectRef::swap, UndoObjectRelease::swap", "src/core/UndoManager.cpp: undo, redo, commit, rollback"])
p("C94","Numbers with a fixed number of decimal places",
  "String::valueOf(number, precision, trunc) is the number rounded to that many decimal places: at most half a unit of the last place away (up to rounding errors far below that unit), with exactly precision digits behind the comma, or without the zeros at the end and without a comma if trunc is set; numbers that have at most that many decimal places are written exactly. String::arg(double) inserts that text.",
  "all doubles of absolute value below 2^63, all precisions from 0 to 14, with and without trunc, all field widths",
  "2^64 doubles times precisions; the digits depend on two rounded multiplications and on a carry from the decimal places into the whole part.",
  ["src/core/String.cpp: String::valueOf(double, int64, bool), String::arg(double, int64, int64, Char)"])
p("C95","Doubles as text and back",
  "String::valueOf(double) writes a finite double as the nearest decimal number with ten significant digits; String::toDouble and ConvertToDouble read a decimal number (sign, digits, point - for ConvertToDouble also a comma -, exponent; after white space, before other text) as the nearest double; writing and reading changes a double by at most a billionth and leaves numbers with at most ten significant digits unchanged; numbers written with a fixed number of decimal places (C94) are read back by ConvertToDouble to within that place.",
  "all finite doubles; all decimal numerals of any length, surrounded by any white space and any other text",
  "2^64 doubles and infinitely many texts; correctness of the last digit depends on exact rounding between base 10 and base 2.",
  ["src/core/String.cpp: String::valueOf(double), String::toDouble, ConvertToDouble"])
p("C96","Value types own their memory",
  "Variables of type String, StringList, ByteArray, CharArray, Array, Vector and Matrix behave like values: after any program of constructions, copies, assignments (also to itself), changes and destructions, every variable has the value computed as if each had its own copy; no freed, foreign or uninitialised memory is used; once all variables are destroyed, all memory is freed. A Resource shares its stream: the stream lives as long as some variable has it.",
  "all programs (sequences of operations of any length) over any number of variables, with any arguments",
  "A test runs one program; whether two variables share a block shows only when both are changed or destroyed, and use of freed memory usually gives the right answer anyway.",
  ["src/core/String.cpp: String::String, operator=, append, clear", "src/core/StringList.cpp: StringList::StringList, operator=, append, checkSize", "src/core/ByteArray.cpp: ByteArray::ByteArray, operator=, resize", "src/core/CharArray.cpp: CharArray::CharArray, operator=", "include/core/Array.h: Array", "src/core/Vector.cpp: Vector::Vector, operator=", "src/core/Matrix.cpp: Matrix::Matrix, operator=", "src/core/Resource.cpp: Resource::Resource, operator=, ~Resource", "src/core/NURBS.cpp, src/core/MemoryStream.cpp, src/core/Hashtable.cpp: destructors", "src/core/SAXAttributes.cpp: SAXAttributes copy"])
p("C97","lock and unlock exclude each other",
  "Threads that use lock, unlock, sleep, wakeUp, isAlive, start and interrupt of a Thread object: at no time are two of them between lock and unlock, no call is undefined, the flag behind isAlive is never used by two threads at once, and when nothing can happen any more nobody holds or waits for the mutex: every thread has finished, sleeps until woken, waits for the end of the worker, or was never started.",
  "all programs of such calls for a worker, the thread that starts and interrupts it, and any number of other threads; all schedules, timeouts and spurious wake ups",
  "A race shows only under some interleavings; a test sees a handful of them.",
  ["src/core/Thread.cpp: StartThread, start, lock, unlock, sleep, wakeUp, interrupt, isAlive", "src/core/Mutex.cpp: lock, unlock, sleep, wakeUp"])
p("C98","interrupt ends a thread, wakeUp wakes it",
  "interrupt() makes isAlive() false for good and returns after run() has returned, provided run() loops while isAlive(); wakeUp() ends the sleep of the thread.",
  "all programs as in C97, all schedules",
  "The outcome depends on the moment between start, isAlive, sleep and interrupt; a test hits the usual order.",
  ["src/core/Thread.cpp: StartThread, start, sleep, wakeUp, interrupt, isAlive", "include/core/Thread.h: run, interrupt"])
p("C99","sleep(millis) ends at the right time",
  "sleep(millis) waits until millis milliseconds from now, and does not wait when millis is negative.",
  "all current times and all numbers of milliseconds",
  "The computation mixes signed and unsigned 64 bit numbers; tests sleep for milliseconds only.",
  ["src/core/Thread.cpp: sleep(int64)"])
p("C100","Log messages of several threads",
  "System::log writes every message of every thread as one whole line (date, label, message), keeping the order of each thread; debug messages are not shown; lastErrorMessage gives the last message logged as an error; changes of the settings take effect for the calls after them; nobody blocks for ever.",
  "any number of threads with any calls of log, logEnableDate, logEnableLabel, all schedules",
  "Mixed lines need an unlucky interleaving, and messages with unusual characters are not tested.",
  ["src/core/System.cpp: log, logEnableDate, logEnableLabel, lastErrorMessage", "src/core/String.cpp: operator<<(std::ostream)", "src/core/Mutex.cpp: lock, unlock"])
p("C101","A file gives back what was written to it",
  "Between open and close, read, readFully, write, seek, move and position of a File answer as an array of bytes with a position would; after close the file holds exactly that array and no other file has changed; what was written in any number of pieces is read back; after a crash in between the file holds what the history up to some byte has written.",
  "all contents, all modes, all histories of calls, every moment at which the C library passes buffered bytes on, every crash point",
  "Histories, buffering and crash points are unbounded; tests write and read a few small files.",
  ["src/core/File.cpp: open, close, seek, move, position, read, readFully, write, size", "include/core/File.h: mHandle"])
p("C102","Open files, copies of File objects, creating, renaming, removing",
  "Every stream that open() opened belongs to exactly one File object until it is closed, and none is left open; two open files do not disturb each other; createNewFile changes nothing when the file exists and says so; remove and renameTo do what they say to this file and nothing to the others; open reports why it failed.",
  "all programs over any number of File variables (create, copy, assign, destroy, open, close, read, write, rename, remove), all file systems",
  "Which object owns the stream depends on the history of copies and assignments; leaks are not visible in an assertion.",
  ["src/core/File.cpp: File, operator=, ~File, open, close, isOpen, createNewFile, remove, renameTo, exists", "include/core/File.h: createNewFile"])
p("C103","execute() returns the number of failed assertions",
  "TestVector::execute returns the number of assertions that failed in the tests it ran (an uncaught Exception counts as one), 0 exactly when all went well; each assertion passes exactly when what it says is true; the argument selects the test of this number, without an argument all are run.",
  "all lists of tests, all sequences of assertions with all values, all arguments",
  "It is the test framework itself: an assertion that accepts a wrong value hides the error in every test that uses it.",
  ["src/core/Test.cpp: testEquals, testNull, testTrue, testFail", "src/core/TestVector.cpp: execute, testrun"])
p("C104","Lines of text through std streams",
  "String >> reads one line of a stream and leaves the stream behind it; in a loop it gives all lines in order; what << writes on a line is what >> reads.",
  "all texts, all contents of a stream",
  "The buffer of 256 bytes and the two different charsets matter only for long lines and characters outside of ASCII.",
  ["src/core/String.cpp: operator>>, operator<<, String(const char*, int64)"])
p("C105","Tags of a file",
  "Any history of setTags, addTag, removeTag and getTags on a file behaves as on a list of tags: what was set is read back, adding a tag that is there or removing one that is not changes nothing, the other tags stay, and a refused write changes nothing and is reported.",
  "all histories, all lists of tags, every pattern of refusals by the operating system (Linux)",
  "Histories are unbounded; the 4096 byte buffer and the comma as separator matter only for unusual tags.",
  ["src/core/File.cpp: File::getTags, setTags, addTag, removeTag"])
p("C106","Deflater compresses without loss",
  "setInput and deflate give a zlib stream (RFC 1950) from which Inflater restores exactly the bytes; totalInSize and totalOutSize count the bytes since the last reset.",
  "all byte sequences, all histories of calls, every zlib",
  "Incompressible data and sizes beyond 32 bits; the space of inputs is unbounded.",
  ["src/core/Deflater.cpp: setInput, deflate, reset, totalInSize, totalOutSize"])
p("C107","Directories and kinds of files",
  "Of isDirectory, isFile, isLink and isPipe exactly one is true for what exists and none for what does not. makeDirectory makes one directory where its parent exists and nothing else is; remove takes away exactly one file, link, pipe or empty directory; both tell the truth and touch nothing else. listFiles gives every entry of a directory once, as a File that leads to it.",
  "all file systems (finite trees), all paths, all histories of calls, refusals of the system, other processes between the two passes of listFiles",
  "Uninitialised memory decides for missing files and a test sees one value of it; races with other processes; unbounded trees.",
  ["src/core/File.cpp: makeDirectory, exists, isDirectory, isFile, isHidden, isLink, isPipe, remove, listFiles"])
p("C108","Points of a rectangle lie in it",
  "The four corners, the four middles of the edges and the centre that a Rect reports are contained in it and agree with its edges; isEmpty is true exactly for rectangles thinner than the tolerance; moving forth and back restores the rectangle; moving, shifting an edge and aligning move exactly the edges they name by exactly the distance and keep the rest; component-wise minimum and maximum bound both points; Size == and != are opposites.",
  "all rectangles, points and sizes of doubles",
  "Rounding could carry a point out of the rectangle for single values only; there are 2^256 rectangles.",
  ["src/core/Rect.cpp: center, topLeft..rightCenter, isEmpty, move, moveHorizontal, moveVertical, alignTopLeft, alignBottomLeft, shiftTop..shiftBottom", "src/core/Point.cpp", "src/core/Size.cpp"])
p("C109","Angles, decimal places and machine epsilon",
  "degToRad and radToDeg are right up to a few roundoffs and invert each other up to that; roundFrac gives the double nearest to a number with the wanted decimal places that is off by at most half a unit of the last place, and rounding again changes nothing; doubleMaschineEpsilon ends and returns the bound up to which adding to 1 has no effect.",
  "all doubles in the range of the statements, 0 to 22 decimal places",
  "2^64 doubles, each with its own rounding.",
  ["src/core/Math.cpp: degToRad, radToDeg, roundFrac, doubleMaschineEpsilon"])
p("C110","Settings persist from one run of a program to the next",
  "System::init(bundleId) gives a program the settings last saved for this bundle id; System::preferences() answers as a map starting with them; savePreferences() and quit() store them; quit() deletes every object of the library exactly once and may be called again. A crash loses at most what was not saved.",
  "all sequences of processes with any bundle ids, any calls in each, ends by quit or by a crash at any point, writable or unwritable files",
  "Unboundedly many processes, each with unboundedly many calls and crash points.",
  ["src/core/System.cpp: init, quit, preferences, savePreferences", "src/core/Charset.cpp: initCharsets, quitCharsets, getDefault, forName", "src/core/I18nBundle.cpp: initDefault, quitDefault", "src/core/Preferences.cpp: load, save", "src/core/File.cpp: setCString"])
p("C111","Modification times of files; the program's path, name and directory",
  "File::lastModified() is the time of the last modification in milliseconds, so of two files the one modified later has the later date. ExecPath() is the path of the running program, ExecName() its part behind the last separator, ExecDir() the part before it.",
  "all times which an operating system can report, all paths",
  "2^64 times and unboundedly many paths; needs a file system with chosen times.",
  ["src/core/File.cpp: File::lastModified, ExecPath, ExecName, ExecDir"])
p("C112","Typed XML attributes are read back",
  "What is written with XMLWriter::writeAttribute(name, value) for a text, an integer, a float, a double or a bool is what SAXAttributes of the element yields through value, valueAsInt, valueAsFloat, valueAsDouble, valueAsBool in SAXParser::startElement, whatever else the document contains; names that were not written have no value; positions below count() give the attributes in the order written.",
  "all documents written by calls of XMLWriter, all attribute lists, all integers, floats and doubles",
  "Unboundedly many documents; 2^32 floats, 2^64 integers and doubles.",
  ["src/core/XMLWriter.cpp: XMLWriter::writeAttribute", "src/core/SAXAttributes.cpp: SAXAttributes::valueAsInt, valueAsFloat, valueAsDouble, valueAsBool, value, count, localName, qualifiedName"])
p("C113","Documents and their undo managers live and die together, and isDocumentChanged tells the truth",
  "Whatever documents a program creates, edits, switches undo on and off for, undoes, transacts on and destroys: nothing freed is used, each document behaves as if it were alone, every undo manager belongs to exactly one live document and is gone with it, and if isDocumentChanged is false while no undo step and no transaction is open, all members have the values they had when setDocumentChanged(false) was last called. An undo manager a client retains stays usable.",
  "all histories of calls on any number of documents, objects of documents and their undo managers; all member values",
  "Histories are unboundedly long and interleave any number of documents; use after free need not show in a test.",
  ["src/core/Document.cpp: Document::Document, ~Document, setUndoManager, closeUndoStep, setDocumentChanged, isDocumentChanged, regenerate", "src/core/UndoManager.cpp: UndoManager::~UndoManager, close, undo, redo, registerChange, openTransaction, closeTransaction", "src/core/EditableObject.cpp: EditableObject::setMember, openTransaction, closeTransaction", "src/core/Object.cpp: Object::retain, Object::release"])
p("C114","Dot, cross and matrix products and determinants are accurate up to the unavoidable rounding",
  "For doubles that cause no overflow, every dot product, cross product, matrix product, matrix-vector product, transformed point and determinant (2x2 to 4x4) is finite and differs from the exact value by at most ((1+2^-53)^n - 1) times the sum of the absolute values of the products plus a bound for underflow, n the number of roundings. isLeftTo and isRightTo agree with each other, never say something wrong for finite vectors, and decide every pair whose cross product exceeds that bound; dot products commute, cross products are antisymmetric, a vector times itself is not negative. The solution of a 2x2 system satisfies both equations up to rounding. If the error bound of the determinant is at most half of the determinant, every element of the inverse of a matrix of one to four rows is off by at most three times its cofactor's error bound divided by the determinant, plus three times the relative error of the determinant plus two roundings, times the element.",
  "all IEEE doubles of the arguments (components up to 2^500, determinants up to 2^200), all vector lengths and matrix sizes up to 2^51",
  "2^64 values per component and unboundedly many sizes; rounding errors depend on every bit.",
  ["src/core/Vector.cpp: Vector::dotProduct", "src/core/Vertex2.cpp: Vertex2::dotProduct, crossProduct, isLeftTo, isRightTo, solveLinearSystem", "src/core/Vertex3.cpp: Vertex3::dotProduct, crossProduct", "src/core/Matrix.cpp: operator*, Matrix::det, Matrix::inverse, Matrix::trans"])
p("C115","Integer coordinates are computed with exactly",
  "If all elements are integers (or multiples of a common power of two) and the sum of the absolute products stays within 2^53, dot and matrix products are exact; so are dot and cross products of vertices up to 2^25 (2^26 in the plane), the side tests, and determinants of matrices with elements up to 2^26, 2^16 and 2^12 for 2, 3 and 4 rows. The inverse of such a matrix exists exactly if the determinant is not zero, and every element is off by at most two roundings.",
  "all integer matrices and vectors within the bounds, all sizes for products",
  "Unboundedly many matrices; an error in one of 24 products of a determinant shows only for special matrices.",
  ["src/core/Vector.cpp: Vector::dotProduct", "src/core/Vertex2.cpp: Vertex2::dotProduct, crossProduct, isLeftTo, isRightTo", "src/core/Vertex3.cpp: Vertex3::dotProduct, crossProduct", "src/core/Matrix.cpp: operator*, Matrix::det, Matrix::inverse"])
p("C116","A diff object can be used again and again, and its report has one entry for each change",
  "Whatever a client does with DiffDistance objects and results it has not destroyed, in any order: no freed memory is used, no call fails (if equals is symmetric), solve compares exactly what was added since the last clear, distance is the edit distance, and print writes, in order, one entry A, D, M or R for each insertion, deletion and replacement of a cheapest edit script, also after the DiffDistance was cleared or destroyed. Objects and steps of results are freed when their owner destroys them.",
  "all histories of create, addU, addV, solve, distance, clear, destroy, print and drop on any number of objects, all lists, all symmetric equalities",
  "Unboundedly many histories; diagonals are created lazily and linked in both directions, and which of them exist depends on the inputs.",
  ["src/core/DiffDistance.cpp: DiffDistance::solve, clear, addU, addV, distance", "src/core/DiffDiag.cpp: DiffDiag::above, below, entry", "src/core/DiffBacktrace.cpp: DiffBacktrace::DiffBacktrace, ~DiffBacktrace, solve, print", "src/core/DiffInfo.cpp: DiffInfo::print"])
p("C117","A diff report shows exactly the values that changed",
  "For a modified object, print writes nothing for a value that did not change and otherwise exactly one line with the label, the old value, the new value and (for numbers) their difference, from which the values can be read back; for an added or deleted object one line with the value; for a kept object nothing. Doubles and vertices are compared with the tolerance of isEqual: a change of 10^-6 or more is always shown.",
  "all pairs of 32- and 64-bit integers, doubles, vertices and strings, all labels, all operations",
  "2^128 pairs of numbers; overflow of the difference, NaN and infinity are the special values tests leave out.",
  ["src/core/DiffInfo.cpp: DiffInfo::print, DiffInfo::printIgnoreCase", "src/core/String.cpp: operator<<(std::ostream&, const String&)", "src/core/Math.cpp: isNotEqual"])
p("C118","Arrays of pointers and of floats keep, copy and sort their elements",
  "Array<T*> and FloatArray return what was last stored at an index, copies have the same elements, a wrong index is refused, and sort() leaves an ascending permutation in which elements that compare equal keep their order (for every total preorder given by compareTo, and for all floats).",
  "all lengths, contents, indices, comparison functions and positions of null pointers or NaN",
  "Stability and sortedness are statements about all permutations of arrays of all lengths; null pointers, NaN and uninitialised cells are positions tests leave out.",
  ["include/core/Array.h: Array<T*>", "include/core/Array.h: FloatArray", "include/core/Array.h: sort"])
p("C119","The undo manager's steps and changes in memory are linked, moved and deleted correctly",
  "For every sequence of registrations, assignments, close, undo, redo, clear, transaction calls and setActive, no deleted step or change is touched or deleted twice, every call returns what the history of edits prescribes, undo and redo restore the memory of the program, exactly the steps and changes of the history stay allocated, and the destructor deletes all of them.",
  "all finite sequences of calls in any order (also undo inside a transaction and calls on an inactive manager), all registered members and assigned values",
  "Double deletion, lost nodes and broken links show up only for particular interleavings of undo, redo, new edits and transactions; the sequences are unbounded.",
  ["src/core/UndoManager.cpp: undo, redo, close, clearStacks, registerChange, commit, rollback, ~UndoManager", "src/core/UndoStep.cpp: add, ~UndoStep", "include/core/UndoData.h: UndoStep, UndoChange"])
p("C120","setMember stores every number it accepts",
  "After setMember on a double, vertex or ranged integer member returns eOK or eNotChanged, the member has the value that was passed and no other member has changed; NaN and values outside the range are refused without effect; setting the value the member has already is never recorded as a change.",
  "all doubles, vertices, integers, ranges and states of the undo manager",
  "The tolerance, signed zeros and NaN matter only for particular pairs of doubles; the loss by repeated small moves needs histories of any length.",
  ["src/core/EditableObject.cpp: setMember", "src/core/Vertex3.cpp: operator==", "src/core/Math.cpp: isEqual, isNaN"])
p("C121","Copies, globals and shutdown do not disturb reference counts",
  "Objects are destroyed exactly when the last reference is given up, also if they are copied or assigned to, whenever they were made (before System::init, as globals of an application are) and however often the library is shut down and started again: a copy is an object of its own with one reference, assigning to an object changes neither the number of references to it nor its mark.",
  "all sequences of init, quit, new, copy, assignment, retain, release, autorelease, drain and setHighBit, any number of objects and sessions",
  "Lifetimes depend on the whole history of every object and every session; the failures appear only for particular counts.",
  ["src/core/Object.cpp: Object::Object, release, retain, autorelease, referenceCount, setHighBit, highBit", "include/core/Object.h: Object (implicit copying)", "src/core/AutoreleasePool.cpp: drain, add", "src/core/System.cpp: init, quit, autoreleasePool"])
p("C122","Lengths, distances, unit vectors and angles in doubles",
  "Vertex2::abs, Vertex3::abs and Vector::abs return the length of the vector to within a few units in the last place, exactly if length and components are integers; the distance of two points is the same in both directions, zero from a point to itself, positive for different points, obeys the triangle inequality up to rounding and is as accurate as a length however close the points are; larger components never give a smaller length; normalized vectors have length one to within 6 * 2^-53; the angle of a vector with itself is zero.",
  "all vectors and points with double coordinates, subnormal, infinite and NaN ones included, any dimension for Vector",
  "2^192 vectors and every combination of rounding, underflow and overflow.",
  ["src/core/Vertex2.cpp: abs, normalize, normalized, angleTo", "src/core/Vertex3.cpp: abs, normalize, normalized, angleTo", "src/core/Vector.cpp: abs", "src/core/Geometry.cpp: distancePointToPoint"])
p("C123","Directories of the user and of the process",
  "UserDir is the value of HOME, PropertyDir a directory of the running program inside it, currentDir the current directory and TempDir the directory for temporary files - in every environment, without undefined behaviour.",
  "all values of HOME or none, all program paths, all current directories or none",
  "The functions depend on the environment of the process; a test sees the one program and the one environment it runs in.",
  ["src/core/File.cpp: PropertyDir, UserDir, TempDir, currentDir, ExecName"])

p("C124","Dates as values: clock, Cocoa times, local time, order",
  "Date() is the number of whole milliseconds of the clock and does not go back when the clock does not; fromNSDate converts seconds since 2001 to the right date, exactly for whole seconds, in the right order and within 1.5 ms for all others; local and UTC getters agree with the calendar; the day of the year counts the days since the first of January; the comparison operators and compareTo are one and the same total order, and only the empty mark is empty.",
  "all answers of the clock, all doubles (NaN and infinities included), all 64-bit times",
  "2^64 doubles and times.",
  ["src/core/Date.cpp: Date, fromNSDate, localTime, utc, year … utcMilliseconds, isEmpty, time, setTime, operators", "include/core/Date.h: EMPTY"])
p("C125","The language of the system",
  "System::language() returns the language in which the user wants to read messages, in the form de-DE, whatever else the user has configured; asking does not change anything and gives the same answer every time; a program without a language of its own loads the translation of that language.",
  "all environments (settings for every locale category), all sets of installed locales, every earlier locale of the process",
  "Depends on a dozen environment variables and the installed locales; a test sees one machine.",
  ["src/core/System.cpp: System::language", "include/core/System.h: language", "src/core/I18nBundle.cpp: transFileByBundleId"])
p("C126","Names of the user and address of the network card",
  "userId() is the account name and userFullName() the natural name of the user of the process; macAddress1() is the address of the first network card in the usual notation, different cards give different texts, and every list of interfaces is handled without undefined behaviour.",
  "all environments, user databases and lists of network interfaces",
  "Depends on the machine and its users.",
  ["src/core/System.cpp: userId, userFullName, macAddress1", "include/core/System.h"])
p("C127","A hash table in memory, and iterating while it changes",
  "A Hashtable frees every entry and array exactly once and loses none, for every history of calls, however often it is rehashed; a program may change the table while iterating over it, copy it, and use the keys an iterator delivered; an iteration delivers each key exactly once.",
  "all key types and hash functions, all histories of put, get, remove, clear, next and hasNext, key and value iterators",
  "Lifetimes depend on the whole history; use after free often goes unnoticed in a test.",
  ["src/core/Hashtable.cpp: put, remove, clear, rehash, ~Hashtable, HashtableIterator::next, hasNext", "include/core/Hashtable.h: HashtableEntry, HashtableIterator"])
p("C128","Linked lists and their elements under undo",
  "However a program mixes add, addBefore, remove, clear and swapData on any number of LinkedLists with other registered changes, undo, redo, steps, clearing the stacks, nested transactions, commit and rollback: every list can be walked in both directions and holds the elements and data of the corresponding moment, every element and datum reached is alive, no freed object is touched, every call reports what happened, and when the history is forgotten exactly the objects the program holds remain.",
  "all finite sequences of these calls that back their data by registered references, any number of lists and objects, any list length",
  "Which object is freed when depends on the whole history of edits, undos and redos; tests try a few.",
  ["src/core/LinkedList.cpp: add, addBefore, remove, clear, swapData", "src/core/UndoManager.cpp: undo, redo, close, clearStacks, openTransaction, commit, rollback", "src/core/UndoChange.cpp: UndoPtrRef, UndoRetain, UndoRelease"])
p("C129","Iterating over a linked list while it changes",
  "Any number of iterators over a LinkedList, and the list's own cursor, keep their places whatever calls are made on the list in between: an iterator stays before the same object, so objects already delivered may be removed, objects inserted behind it or appended are delivered too, objects removed further on are not, and every object that stays is delivered once; a loop that removes the delivered objects satisfying a condition leaves exactly the others, in order. The one thing that loses an iterator its place is removing the very object it would deliver next; the cursor of the list never dangles, but every call that searches moves it.",
  "all finite sequences of calls on the list, on any number of iterators (also copied ones) and on the list's cursor, with and without undo manager, any list length",
  "Whether an iterator survives depends on where it stands relative to every change; tests try one or two changes during a loop.",
  ["src/core/LinkedList.cpp: iterator, LinkedListIterator::hasNext, next, seek, LinkedList::rewind, hasNext, next, remove, addBefore, swapData, clear"])
p("C130","Counters, truncation and reuse of the decompressor",
  "After Inflate returns, whatever the input was, the end of the stream is reported and no more input asked for, GetTotalOut is the number of bytes delivered, and GetTotalIn and GetRemaining make up the input. Bytes behind the compressed data change nothing but the number of remaining bytes, rejected data stay rejected. If the input ends before the stream does, NeedsInput tells so and the rest can be given in a further call. After Reset the object behaves as a new one.",
  "all byte sequences as input, valid or not, all bytes appended to them, all places at which the input can be cut, all states of the object before Reset",
  "Where a decompressor stops reading depends on every bit of the input; tests try a few streams cut at a few places.",
  ["src/core/Inflater.cpp: SetInput, NeedsInput, Finished, Inflate, Reset, GetRemaining, GetTotalIn, GetTotalOut"])
p("C131","Building text with +, += and <<",
  "An expression text + text, or a chain text << a << b << ..., of any length, yields the left text followed by what the operands stand for, in order: texts for their characters (also the text on the left itself), numbers for their decimal form, characters for themselves; operands other than the left one of << and += are unchanged, + is associative with the empty text as neutral element, and the result hashes like any equal text.",
  "all texts, all numbers of the operand types, all characters, chains of every length, the text appended to itself",
  "Buffer growth depends on the lengths of all operands, and conversions on every value; tests try a few.",
  ["src/core/String.cpp: operator+, operator+=, operator<<, append, valueOf", "include/core/CharArray.h: Char"])
p("C132","Character classes and case conversion",
  "Every ASCII character is classified (capital letter, small letter, letter, digit, white space) and converted to capital or small as everywhere else, no character belongs to two classes, every letter of every script is a letter and every capital letter has a small one; converting twice changes nothing more, only letters are changed and converting back restores them, and a text is equal up to case to its conversions.",
  "all 65536 characters, all texts",
  "A test looks at a few characters; the borders of the classes and the gaps between them are where errors are.",
  ["src/core/Character.cpp: isDigit, isLetter, isUpperCase, isLowerCase, isWhitespace, toLowerCase, toUpperCase, digitValue", "include/core/CharArray.h: Char", "src/core/String.cpp: toLowerCase, toUpperCase, equalsIgnoreCase"])
p("C133","Vectors of any length",
  "Sums, differences, multiples, scalar products and lengths of vectors of any length are, without rounding, those of the real vector space (and for every number type calculated element by element); vectors of different lengths are rejected with an exception; normalize gives the vector of length 1 in the same direction for every vector other than 0; a new vector is 0.",
  "all lengths, all elements",
  "The length is unbounded and the elements are a continuum; tests use two or three elements.",
  ["src/core/Vector.cpp: Vector, abs, normalize, dotProduct, operator+, operator-, operator*"])
p("C134","Transforming lengths and angles",
  "Without rounding, for a transformation that multiplies all distances by k a length becomes k times that length; for a transformation within the plane an angle becomes the direction of the image of a line at that angle, so that angles of rotations add up; segments and lines in all directions are treated alike.",
  "all transformation matrices, lengths and angles",
  "A continuum of matrices and angles; a test with a positive angle does not show that the sign is lost.",
  ["src/core/Matrix.cpp: Matrix::trans(double), Matrix::transAngle"])
p("C135","Registering a block of bytes with the undo manager",
  "registerChange(object, pointer, length) puts the bytes of the block into the undo history when the manager is active and does nothing otherwise; it never throws, and no memory is lost.",
  "every state of the manager, every live object, block and length, and every sequence of such calls",
  "A test makes a few calls; that no call ever succeeds, whatever the state, and that the loss is exactly the sum of the long blocks, are statements about all calls and sequences.",
  ["src/core/UndoManager.cpp: registerChange(Object*, uint8**, uint64)","src/core/UndoChange.cpp: UndoChangeBuffer"])
p("C136","Printed vectors and matrices can be read back",
  "Writing a Vector to a stream gives a bracket, the texts of its elements in order and a bracket, separated by blanks, so that the text determines the number of elements and their texts; Matrix::print gives one line for every row, which consists in the same way of the elements of that row as value(row, column) returns them, left to right. No element outside the object is read.",
  "every vector and every matrix of any size, also with no rows or no columns, and every text the stream writes for a number that is not empty and contains no blank and no line feed",
  "A test prints a few square matrices; that rows and columns are not exchanged and nothing outside is read for every shape, and that no two vectors have the same text, are statements about all of them.",
  ["src/core/Vector.cpp: operator<<(std::ostream&, const Vector&)","src/core/Matrix.cpp: Matrix::print"])
p("C137","Exceptions carry their message and trace, and are logged once",
  "An Exception keeps the message it was made with and writes exactly this message to the log when it is made, not when it is copied for throwing and catching; the stack trace of the exception and of every copy consists of a line with the message, if it is not empty, and one line for every stack frame except the constructor's own, in order.",
  "every message, every number of frames the system reports and all their names (Linux), provided the system can allocate the names",
  "A test sees the trace of the stacks it happens to run on; that no frame is missed, repeated or read outside the list holds for all lengths, including an empty stack.",
  ["src/core/Exception.cpp: Exception, errorMessage, GetStrackTrace","include/core/Exception.h"])
import os
out=os.path.join(os.path.dirname(os.path.abspath(__file__)),"..","properties.jsonl")
with open(out,"w") as f:
    for x in P: f.write(json.dumps(x)+"\n")
print(len(P))
