{"id": "C01", "title": "Index complement is a sign-flipping involution", "statement": "For every ind value x, ~(~x) == x, exactly one of x and ~x converts to true, and complementing a non-negative array index yields a negative value from which the same index is recovered.", "quantifier": "all 64-bit values of ind", "why_tests_cant": "2^64 values; a test samples a handful", "anchors": ["lube/ind.h:ind::operator~", "lube/ind.h:ind::operator bool", "lube/var.cpp:var::reference"]}
{"id": "C02", "title": "Array capacity is the least power of two that fits, at least eight", "statement": "Whenever an array is (re)allocated for n elements (n up to 2^30) its capacity is a power of two, is at least n and at least 8, and no smaller power of two has both properties; capacity never shrinks, so appending elements one at a time reallocates only when the size passes a power of two.", "quantifier": "all requested sizes and all sequences of resizes", "why_tests_cant": "sizes range over the whole int range and over arbitrary resize histories", "anchors": ["lube/heap.cpp:allocSize", "lube/heap.cpp:Heap::resize"]}
{"id": "C03", "title": "UTF-8 length counts code points", "statement": "For every string that is the UTF-8 encoding of a sequence of Unicode scalar values (none of them NUL), the utf8 length equals the number of scalar values.", "quantifier": "all finite sequences of Unicode scalar values", "why_tests_cant": "infinitely many strings", "anchors": ["lube/utf8.cpp:var::len", "lube/utf8.cpp:utf8len"]}
{"id": "C04", "title": "UTF-8 length rejects malformed input and never reads past the terminator", "statement": "For every NUL-terminated byte string the length function either returns the number of lead-byte-plus-continuation groups the string consists of or reports -1, it reports -1 exactly when no such grouping exists, and in neither case does it examine a byte after the terminator.", "quantifier": "all byte strings, well formed or not, including truncated multi-byte sequences at the very end", "why_tests_cant": "memory over-read depends on what lies behind arbitrary malformed strings", "anchors": ["lube/utf8.cpp:var::len"]}
{"id": "C05", "title": "Splitting on a separator loses nothing", "statement": "For every string without embedded NUL characters and every non-empty separator, split(separator) returns pieces that, joined with the separator, give back exactly the original string.", "quantifier": "all strings and all non-empty separators", "why_tests_cant": "infinitely many pairs of strings, including overlapping separator occurrences", "anchors": ["lube/string.cpp:var::split", "lube/string.cpp:var::join"]}
{"id": "C06", "title": "No piece of a split contains the separator", "statement": "For every string without embedded NUL characters and non-empty separator, no piece returned by the unlimited split(separator) contains the separator as a substring.", "quantifier": "all strings and all non-empty separators", "why_tests_cant": "infinitely many pairs of strings", "anchors": ["lube/string.cpp:var::split"]}
{"id": "C07", "title": "Split with a limit returns at most that many pieces", "statement": "For every string without embedded NUL characters, non-empty separator and limit m >= 1, split(separator, m) returns at most m pieces, cuts at the first separators and as often as the limit allows, and joining still restores the string.", "quantifier": "all strings, separators and positive limits", "why_tests_cant": "three unbounded parameters", "anchors": ["lube/string.cpp:var::split"]}
{"id": "C08", "title": "Split terminates for every separator", "statement": "For every string and every separator, including the empty one, split(separator) returns after finitely many steps.", "quantifier": "all strings and separators", "why_tests_cant": "non-termination cannot be observed by a finite test; relies on progress for every input", "anchors": ["lube/string.cpp:var::split"]}
{"id": "C09", "title": "Joining then splitting recovers the list", "statement": "For every non-empty list of strings without embedded NUL characters and every single-character separator that occurs in none of them, splitting the joined string gives back the list.", "quantifier": "all lists of strings and separators not occurring in them", "why_tests_cant": "infinitely many lists", "anchors": ["lube/string.cpp:var::join", "lube/string.cpp:var::split"]}
{"id": "C10", "title": "Whitespace split yields exactly the words", "statement": "For every string without embedded NUL characters, split() returns the maximal runs of non-space characters in order: every word is non-empty and contains no whitespace, and deleting all whitespace from the string gives the concatenation of the words.", "quantifier": "all strings", "why_tests_cant": "infinitely many arrangements of spaces and words", "anchors": ["lube/string.cpp:var::split(int)"]}
{"id": "C11", "title": "Whitespace split with a limit returns at most that many pieces", "statement": "For every string without embedded NUL characters and limit m >= 1, split(m) returns at most m pieces and the first pieces are the words of the unlimited split.", "quantifier": "all strings and all positive limits", "why_tests_cant": "unbounded limit and strings; boundary m = 1 is not in the test-suite", "anchors": ["lube/string.cpp:var::split(int)"]}
{"id": "C12", "title": "strip removes exactly the surrounding whitespace", "statement": "For every string, in-place strip leaves the substring from the first to the last non-space character (the empty string if there is none).", "quantifier": "all strings, including the empty one and those consisting of whitespace only", "why_tests_cant": "infinitely many strings; whitespace-only input is the corner", "anchors": ["lube/string.cpp:Strip", "lube/func.cpp:UnaryFunctor::operator()"]}
{"id": "C13", "title": "Case mapping is pointwise and idempotent", "statement": "For every string, toupper and tolower keep the length, change only ASCII letters, are idempotent, and applying them after one another equals applying the last one alone.", "quantifier": "all byte strings", "why_tests_cant": "infinitely many strings", "anchors": ["lube/string.cpp:ToUpper", "lube/string.cpp:ToLower"]}
{"id": "C14", "title": "Reading lines returns the lines of the file", "statement": "For every byte content of a stream, repeatedly calling getline until it returns nil yields exactly the newline-separated lines of the content, whether or not the last line ends with a newline, independent of line length.", "quantifier": "all byte contents and all line lengths", "why_tests_cant": "unbounded content; internal buffer growth depends on line length", "anchors": ["lube/string.cpp:var::getline", "lube/var.h:var::getline"]}
{"id": "C15", "title": "Text file write then read is the identity", "statement": "For every list of newline-free strings, writing it with the text file module and reading it back gives the same list.", "quantifier": "all lists of newline-free strings", "why_tests_cant": "infinitely many lists", "anchors": ["lube/txtfile.cpp:txtfile::write", "lube/txtfile.cpp:txtfile::read"]}
{"id": "C16", "title": "String streams deliver what was written", "statement": "For every byte string written to a stream over a var, reading back delivers exactly those bytes in order and then end of file, for every split of the writes and reads into separate calls.", "quantifier": "all byte strings and all interleavings of single-character reads and writes", "why_tests_cant": "all byte values, all interleavings", "anchors": ["lube/stream.cpp:varbuf", "lube/var.h:varstream"]}
{"id": "C17", "title": "Stream position follows seek and unget", "statement": "For every sequence of get, peek, unget, seek and put operations that stays inside the content, the varstream behaves as an array of bytes with a read cursor: seek(p) with p < size makes the next get return byte p, unget undoes the last get, peek does not move.", "quantifier": "all operation sequences", "why_tests_cant": "unbounded operation histories", "anchors": ["lube/stream.cpp:varbuf::seekpos", "lube/stream.cpp:varbuf::pbackfail", "lube/stream.cpp:varbuf::uflow", "lube/stream.cpp:varbuf::underflow"]}
{"id": "C18", "title": "INI parsing keeps the last value of every key in every section", "statement": "For every file consisting of comment, blank, section and key=value lines, the parsed map holds for each (section, key) the stripped value of the last such line in that section, and nothing else; sections do not influence each other.", "quantifier": "all sequences of lines", "why_tests_cant": "unbounded files; duplicates and section re-opening", "anchors": ["lube/inifile.cpp:inifile::read"]}
{"id": "C19", "title": "INI values keep everything after the first separator", "statement": "For every key = value line the stored value is the whole text after the first '=', even if the value itself contains '='.", "quantifier": "all keys and values", "why_tests_cant": "all possible values", "anchors": ["lube/inifile.cpp:inifile::read"]}
{"id": "C20", "title": "JSON text written by the formatter parses back to the same data", "statement": "For every value built from nil, strings, integers, arrays and string-keyed maps, parsing the text the formatter produces gives a value with the same structure and contents.", "quantifier": "all finite nested values", "why_tests_cant": "unbounded nesting and sizes", "anchors": ["lube/json.cpp:JSON::format", "lube/json.cpp:JSON::operator()"]}
{"id": "C21", "title": "JSON parsing of any text terminates with a value or an exception", "statement": "For every input byte string the JSON parser either returns a value or throws; it never loops forever and consumes no more than the input.", "quantifier": "all byte strings", "why_tests_cant": "arbitrary malformed input; termination", "anchors": ["lube/json.cpp:JSON::operator()", "lube/json.cpp:JSON::doValue", "lube/json.cpp:JSON::doArray", "lube/json.cpp:JSON::doObject", "lube/json.cpp:JSON::doString", "lube/json.cpp:JSON::doRaw"]}
{"id": "C22", "title": "JSON numbers keep their value", "statement": "For every decimal numeral accepted by the parser the resulting number equals the number denoted by the numeral: integers as long, everything with a fraction or exponent as double.", "quantifier": "all numerals", "why_tests_cant": "infinitely many numerals", "anchors": ["lube/json.cpp:toNumber", "lube/json.cpp:JSON::doRaw"]}
{"id": "C23", "title": "JSON delimiters terminate values without being lost", "statement": "For every array text [v1, v2, ..., vn] of integers in standard notation the parser returns the array of those integers.", "quantifier": "all lists of integers", "why_tests_cant": "all lengths", "anchors": ["lube/json.cpp:JSON::doRaw", "lube/json.cpp:JSON::doArray"]}
{"id": "C24", "title": "JSON objects keep the last binding of each key", "statement": "For every sequence of string key / value members the parsed object maps each key to the value of its last occurrence and has its keys in sorted order.", "quantifier": "all member sequences", "why_tests_cant": "unbounded member lists with duplicates", "anchors": ["lube/json.cpp:JSON::doObject", "lube/var.cpp:var::operator[](var)"]}
{"id": "C25", "title": "Equality is an equivalence relation", "statement": "For all values x, y, z: x == x, x == y implies y == x, and x == y and y == z imply x == z; comparison never fails.", "quantifier": "all values: nil, scalars, strings, nested arrays, maps", "why_tests_cant": "quantifies over triples of arbitrary nested values", "anchors": ["lube/var.cpp:var::operator!=", "lube/heap.cpp:Heap::neq"]}
{"id": "C26", "title": "Equality of maps compares keys as well as values", "statement": "For all maps x, y: x == y holds only if they have the same keys bound to equal values.", "quantifier": "all pairs of maps", "why_tests_cant": "all pairs of maps", "anchors": ["lube/heap.cpp:Heap::neq"]}
{"id": "C27", "title": "Equality of views compares the viewed elements", "statement": "For all arrays and views of the same shape, x == y holds exactly if the viewed elements agree.", "quantifier": "all views", "why_tests_cant": "all views over all arrays", "anchors": ["lube/heap.cpp:Heap::neq", "lube/view.cpp:View"]}
{"id": "C28", "title": "Ordering is a strict weak order", "statement": "For all values of a given kind usable as a map key, < is irreflexive, asymmetric and transitive, and incomparability coincides with ==.", "quantifier": "all key values: chars, ints, longs, floats, strings and arrays", "why_tests_cant": "quantifies over triples of values", "anchors": ["lube/var.cpp:var::operator<", "lube/heap.cpp:Heap::lt"]}
{"id": "C29", "title": "Values of different kinds are ordered consistently", "statement": "For all scalars and strings of different types the order is decided by type alone, so a mixed set of keys is still totally ordered.", "quantifier": "all pairs and triples of scalars and strings of arbitrary types", "why_tests_cant": "all combinations of types and values", "anchors": ["lube/var.cpp:var::operator<"]}
{"id": "C30", "title": "Binary search returns the lower bound", "statement": "For every sorted array and every probe, the search returns the number of elements strictly less than the probe, using a number of comparisons at most one more than log2 of the size.", "quantifier": "all sorted arrays, all probes", "why_tests_cant": "all lengths and contents", "anchors": ["lube/var.cpp:var::binary"]}
{"id": "C31", "title": "sort returns a sorted permutation", "statement": "For every array whose elements are scalars of one type or strings, sort() returns an array that is a permutation of the elements in non-descending order, and the original is unchanged.", "quantifier": "all arrays", "why_tests_cant": "all lengths and contents", "anchors": ["lube/var.cpp:var::sort"]}
{"id": "C32", "title": "index finds the first occurrence", "statement": "For every array and value, index(value) returns the least position holding an equal element, or -1 if there is none; on a map it returns the position of the key or -1.", "quantifier": "all arrays, maps and probes", "why_tests_cant": "all contents", "anchors": ["lube/var.cpp:var::index"]}
{"id": "C33", "title": "A map behaves as a finite map under every history of updates", "statement": "After every sequence of m[k] = v, reading m[k] gives the value most recently assigned to k, keys never assigned are absent, and the number of entries is the number of distinct keys.", "quantifier": "all sequences of assignments with scalar and string keys", "why_tests_cant": "unbounded histories", "anchors": ["lube/var.cpp:var::operator[](var)", "lube/var.cpp:var::at(var)", "lube/var.cpp:var::binary", "lube/var.cpp:var::insert"]}
{"id": "C34", "title": "Map iteration is in key order without duplicates", "statement": "After every sequence of updates, iterating the map by position yields each key exactly once in strictly ascending order.", "quantifier": "all sequences of updates", "why_tests_cant": "unbounded histories", "anchors": ["lube/var.cpp:var::operator[](var)", "lube/var.cpp:var::key"]}
{"id": "C35", "title": "Looking up with at() does not change a map, [] adds only the missing key", "statement": "For every map and key, at(key) leaves the map unchanged and yields nil if absent; m[key] on an absent key adds exactly that key with a nil value and leaves every other binding unchanged.", "quantifier": "all maps and keys", "why_tests_cant": "all maps and keys", "anchors": ["lube/var.cpp:var::at(var)", "lube/var.cpp:var::operator[](var)"]}
{"id": "C36", "title": "Arrays work as map keys", "statement": "After every sequence of assignments with numeric arrays as keys, reading a key gives the value most recently assigned to it.", "quantifier": "all histories with array keys", "why_tests_cant": "unbounded histories; depends on order being transitive", "anchors": ["lube/heap.cpp:Heap::lt", "lube/var.cpp:var::binary"]}
{"id": "C37", "title": "A reference into a map stays bound to its key", "statement": "For every map m and keys j, k: a var initialised from m[k] still denotes the value of k after m[j] has been assigned.", "quantifier": "all maps and key pairs", "why_tests_cant": "depends on relative order of keys and on history", "anchors": ["lube/var.cpp:var::operator[](var)", "lube/var.cpp:var::insert", "lube/var.cpp:var::reference"]}
{"id": "C38", "title": "Chained lookup with at() on nested maps", "statement": "For every map of maps, m[j].at(k) yields the value bound to k in the inner map.", "quantifier": "all nested maps and keys", "why_tests_cant": "all nested maps", "anchors": ["lube/var.cpp:var::at(var)", "lube/var.cpp:var::reference"]}
{"id": "C39", "title": "Array operations implement a list", "statement": "Under every sequence of push, pop, shift, unshift, insert and element assignment with valid indices, the contents of an array are those of a list undergoing the corresponding list operations.", "quantifier": "all operation sequences", "why_tests_cant": "unbounded histories", "anchors": ["lube/var.cpp:var::push", "lube/var.cpp:var::pop", "lube/heap.cpp:Heap::shift", "lube/heap.cpp:Heap::unshift", "lube/var.cpp:var::insert", "lube/var.cpp:var::operator[](int)"]}
{"id": "C40", "title": "pop returns the last element as a value", "statement": "For every non-empty array the var returned by pop() equals the former last element, and keeps that value whatever is done to the array afterwards.", "quantifier": "all arrays and all later histories", "why_tests_cant": "depends on every possible later operation", "anchors": ["lube/var.cpp:var::pop"]}
{"id": "C41", "title": "remove returns the removed element", "statement": "For every array and valid index i, remove(i) returns the former element i and leaves the array without it.", "quantifier": "all arrays, all indices", "why_tests_cant": "all contents and indices", "anchors": ["lube/var.cpp:var::remove", "lube/var.cpp:var::copy"]}
{"id": "C42", "title": "Appending an array to itself doubles it", "statement": "For every string or numeric array x, inserting x into x at any valid position gives the list with a copy of itself inserted, without touching memory outside the array.", "quantifier": "all arrays and positions", "why_tests_cant": "memory safety of all sizes", "anchors": ["lube/var.cpp:var::insert", "lube/var.cpp:var::append"]}
{"id": "C43", "title": "A failed push leaves the array unchanged", "statement": "For every array and value, if push throws, the array has the same size and contents as before.", "quantifier": "all arrays and values", "why_tests_cant": "all failing inputs", "anchors": ["lube/var.cpp:var::push", "lube/var.cpp:var::operator[](int)", "lube/var.cpp:var::operator="]}
{"id": "C44", "title": "Shifting or popping an empty array is an error, not undefined behaviour", "statement": "For every empty array, shift() and pop() throw or return nil.", "quantifier": "all empty arrays of every element type", "why_tests_cant": "all element types and histories that lead to an empty array", "anchors": ["lube/heap.cpp:Heap::shift", "lube/var.cpp:var::pop"]}
{"id": "C45", "title": "No object is freed while a variable refers to it", "statement": "In every reachable state of every program of variable declarations, assignments, element accesses, pushes, pops, shifts, inserts, removals, copies, scope exits, and calls of math functions, case mapping, strip, search and replace (in place, into another variable, or into a new one), every array some variable or element refers to is still allocated.", "quantifier": "all programs, all interleavings of operations", "why_tests_cant": "unbounded histories; aliasing graphs of any shape", "anchors": ["lube/heap.cpp:Heap::attach", "lube/heap.cpp:Heap::detach", "lube/var.cpp:var::operator=", "lube/var.cpp:var::~var"]}
{"id": "C46", "title": "No memory is leaked by acyclic data", "statement": "After every program all of whose variables have gone out of scope, every array has been freed, unless it is reachable from a cycle of arrays containing each other.", "quantifier": "all programs", "why_tests_cant": "unbounded histories", "anchors": ["lube/heap.cpp:Heap::detach", "lube/heap.cpp:Heap::unshift", "lube/var.cpp:var::operator="]}
{"id": "C47", "title": "Assignment shares, copy() separates", "statement": "For all arrays: after y = x an element assignment through either is visible through the other; after y = x.copy() neither sees element assignments made through the other.", "quantifier": "all arrays, all later assignments", "why_tests_cant": "quantifies over all later histories", "anchors": ["lube/var.cpp:var::operator=", "lube/var.cpp:var::copy", "lube/heap.cpp:Heap::Heap"]}
{"id": "C48", "title": "copy() works for arrays of every element type", "statement": "For every array of any element type copy() returns an array of the same type, size and contents.", "quantifier": "all arrays of all nine element types", "why_tests_cant": "all contents", "anchors": ["lube/heap.cpp:Heap::copy", "lube/var.cpp:var::copy"]}
{"id": "C49", "title": "Assigning to an element changes only that element", "statement": "For every array and valid index, x[i] = v makes x[i] equal to v converted to the element type and leaves every other element, every other array and the size unchanged; for i >= size the array grows to i + 1.", "quantifier": "all arrays, indices, values", "why_tests_cant": "frame condition over the whole heap", "anchors": ["lube/var.cpp:var::operator[](int)", "lube/var.cpp:var::operator=", "lube/heap.cpp:Heap::resize"]}
{"id": "C50", "title": "Strings stay NUL terminated", "statement": "After every sequence of operations with valid indices on a string, the byte after the last character is NUL, so str() is a valid C string of the right length (if no NUL was stored).", "quantifier": "all operation sequences", "why_tests_cant": "unbounded histories, reallocation points", "anchors": ["lube/heap.cpp:Heap::resize", "lube/var.cpp:var::str"]}
{"id": "C51", "title": "A view's elements lie inside the array", "statement": "For every array, list of dimensions and offset, constructing a view either throws or yields a view all of whose in-range multi-indices address elements of the array.", "quantifier": "all arrays, shapes of any rank, offsets", "why_tests_cant": "all ranks and shapes", "anchors": ["lube/view.cpp:View::setStrides", "lube/view.cpp:View::offset", "lube/var.cpp:var::view"]}
{"id": "C52", "title": "View indexing is row-major and injective", "statement": "For every view of any rank, element (i1,...,in) is the element at offset + sum of i_k times the product of the later dimensions; distinct in-range multi-indices denote distinct elements and together they cover a contiguous block.", "quantifier": "all shapes and index tuples", "why_tests_cant": "all ranks and shapes", "anchors": ["lube/view.cpp:View::setStrides", "lube/var.cpp:var::operator()"]}
{"id": "C53", "title": "Out-of-range multi-indices throw", "statement": "For every view and index tuple, access throws if any component is negative or not less than the corresponding dimension, or if there are too many components, and otherwise succeeds.", "quantifier": "all views and index tuples", "why_tests_cant": "all shapes and tuples", "anchors": ["lube/var.cpp:var::operator()", "lube/var.cpp:var::bounds"]}
{"id": "C54", "title": "Sub-views address the same elements", "statement": "For every view and trailing rank d, subview(d, o) at index j denotes the same element as the original view at the flattened position o + position(j).", "quantifier": "all views, sub-ranks, offsets", "why_tests_cant": "all shapes", "anchors": ["lube/var.cpp:var::subview", "lube/view.cpp:View::View(IHeap*)"]}
{"id": "C55", "title": "Assigning to a view writes through to the array", "statement": "For every view and source of the same element type and shape, assignment to the view replaces exactly the viewed elements of the underlying array.", "quantifier": "all views and sources", "why_tests_cant": "frame condition over all elements; all element types", "anchors": ["lube/var.cpp:var::operator=", "lube/view.cpp:View::copyable", "lube/math.cpp:Set"]}
{"id": "C56", "title": "Transposition swaps rows and columns", "statement": "For all R, C and every R by C matrix, the out-of-place transpose has element (c, r) equal to element (r, c) of the input.", "quantifier": "all matrix sizes and contents", "why_tests_cant": "all sizes", "anchors": ["lube/transpose-adhoc.cpp:Transpose"]}
{"id": "C57", "title": "In-place transposition equals out-of-place transposition", "statement": "For all R, C and every R by C matrix, the in-place algorithm terminates and leaves exactly the result of the out-of-place one.", "quantifier": "all matrix sizes, square or not", "why_tests_cant": "cycle structure of the permutation depends on number theory of R and C", "anchors": ["lube/transpose-adhoc.cpp:inPlace"]}
{"id": "C58", "title": "Transposing twice is the identity", "statement": "For every matrix, in place or not, transposing twice restores the matrix.", "quantifier": "all sizes and contents", "why_tests_cant": "all sizes", "anchors": ["lube/transpose-adhoc.cpp:Transpose"]}
{"id": "C59", "title": "poly returns the coefficients of the monic polynomial with the given roots", "statement": "For every list of n roots, poly returns n + 1 coefficients c with sum c_k x^(n-k) equal to the product of (x - r_i), for every x (in exact arithmetic).", "quantifier": "all root lists, all x", "why_tests_cant": "all lengths, all values", "anchors": ["lube/math.cpp:Poly", "lube/math.cpp:polyt"]}
{"id": "C60", "title": "roots builds a matrix whose eigenvalues are the roots", "statement": "For every polynomial with non-zero leading coefficient, every root z of it is an eigenvalue of the matrix handed to the eigenvalue solver, and every eigenvalue of it is a root.", "quantifier": "all degrees and coefficients", "why_tests_cant": "all degrees", "anchors": ["lube/math.cpp:Roots"]}
{"id": "C61", "title": "Array arithmetic broadcasts the trailing dimensions", "statement": "For every array a whose trailing dimensions equal the shape of b, a op= b replaces each element a[i] by a[i] op b[i mod size(b)], and touches nothing else.", "quantifier": "all shapes and contents", "why_tests_cant": "all ranks and shapes", "anchors": ["lube/func.cpp:ArithmeticFunctor::broadcast", "lube/math.cpp:Add::vector", "lube/math.cpp:Sub::vector", "lube/math.cpp:Mul::vector"]}
{"id": "C62", "title": "Array arithmetic never touches memory outside its operands", "statement": "For all arrays a and b, a op= b either throws or accesses only elements of a and b.", "quantifier": "all pairs of shapes, compatible or not", "why_tests_cant": "memory safety over all shape pairs", "anchors": ["lube/func.cpp:ArithmeticFunctor::broadcast"]}
{"id": "C63", "title": "Out-of-place arithmetic leaves its operands alone", "statement": "For all arrays a, b of the same shape, a + b and a - b return the elementwise result and change neither a nor b.", "quantifier": "all arrays", "why_tests_cant": "all shapes", "anchors": ["lube/math.cpp:Add::vector", "lube/math.cpp:Sub::vector", "lube/func.cpp:BinaryFunctor::operator()"]}
{"id": "C64", "title": "Scalar operands are evaluated once", "statement": "For every numeric array x and valid k, x -= x[k] subtracts the original value of x[k] from every element.", "quantifier": "all arrays and k", "why_tests_cant": "aliasing between operand and target for all k", "anchors": ["lube/func.cpp:ArithmeticFunctor::broadcast", "lube/math.cpp:Sub::scalar"]}
{"id": "C65", "title": "Elementwise functions apply to every element of every nested array", "statement": "For every nested array of numbers, applying an elementwise function in place applies it to each leaf exactly once and keeps the structure.", "quantifier": "all nestings", "why_tests_cant": "unbounded nesting", "anchors": ["lube/func.cpp:UnaryFunctor::broadcast"]}
{"id": "C66", "title": "sum of an array is the sum of its elements along the trailing dimensions", "statement": "For every array of rank 1 sum returns the sum of all elements, for higher rank the sums of the rows; the empty array sums to zero.", "quantifier": "all arrays", "why_tests_cant": "all sizes", "anchors": ["lube/math.cpp:Sum", "lube/func.cpp:UnaryFunctor::broadcast"]}
{"id": "C67", "title": "Ranges contain exactly the arithmetic progression", "statement": "For all lo, hi and positive step, irange(lo,hi,step) returns lo, lo+step, ... below hi and range(lo,hi,step) the same up to and including hi; both terminate.", "quantifier": "all bounds and steps", "why_tests_cant": "all integers; termination near the type's maximum", "anchors": ["lube/var.cpp:irange", "lube/var.cpp:range"]}
{"id": "C68", "title": "XML escaping is reversible and leaves no markup", "statement": "For every string, the escaped string contains no raw <, >, quote or apostrophe and no & that does not start an entity, and replacing the five entities gives back the string.", "quantifier": "all strings", "why_tests_cant": "infinitely many strings", "anchors": ["lube/xmlfile.cpp:escape"]}
{"id": "C69", "title": "XML parse events rebuild the document tree", "statement": "For every element tree, feeding the handlers the start, character data and end events of the tree yields that tree.", "quantifier": "all finite trees", "why_tests_cant": "unbounded nesting", "anchors": ["lube/xmlfile.cpp:Expat::startElementHandler", "lube/xmlfile.cpp:Expat::endElementHandler", "lube/xmlfile.cpp:Expat::characterDataHandler"]}
{"id": "C70", "title": "XML written by the writer reads back as the same tree", "statement": "For every element tree whose names are plain, tokenising the writer's output gives the events of the same tree up to indentation white space.", "quantifier": "all finite trees", "why_tests_cant": "unbounded nesting", "anchors": ["lube/xmlfile.cpp:writeElem"]}
{"id": "C71", "title": "Configuration lookup returns the stored value or the default", "statement": "After every sequence of configuration file merges and explicit settings, a lookup of (section, entry) returns the most recently stored value, or the default if none was stored; lookups change nothing a later lookup can see.", "quantifier": "all histories of merges, settings and lookups", "why_tests_cant": "unbounded histories of global state", "anchors": ["lube/config.cpp:Config::configFile", "lube/config.cpp:Config::config", "lube/config.cpp:Config::configSection"]}
{"id": "C72", "title": "Command line options are recognised and the rest is kept in order", "statement": "For every argument vector, every option registered is reported with its argument, and the remaining arguments are those not consumed, in order.", "quantifier": "all argument vectors", "why_tests_cant": "unbounded argument vectors", "anchors": ["lube/config.cpp:Option"]}
{"id": "C73", "title": "Downloaded data is the concatenation of the received chunks", "statement": "For every way the transport splits the body into chunks, the resulting string is the body.", "quantifier": "all bodies and all chunkings", "why_tests_cant": "chunking is decided by the network", "anchors": ["lube/curl.cpp:writeCallback"]}
{"id": "C74", "title": "Multi-channel sound files can be read and written", "statement": "For every channel count and frame count, reading a sound file returns all samples and writing passes exactly the samples of the array to the file library.", "quantifier": "all channel and frame counts", "why_tests_cant": "all counts", "anchors": ["lube/sndfile.cpp:sndfile::read", "lube/sndfile.cpp:sndfile::write"]}
{"id": "C75", "title": "Comparing nil is safe", "statement": "For all values x, x == nil, nil == x, x < nil and nil < x return a result.", "quantifier": "all values including nil", "why_tests_cant": "undefined behaviour may go unnoticed in tests", "anchors": ["lube/var.cpp:var::operator!=", "lube/var.cpp:var::operator<"]}
{"id": "C76", "title": "Out-of-place strip returns a stripped copy", "statement": "For every string x, lube::strip(x) returns x without its surrounding whitespace and leaves x itself unchanged.", "quantifier": "all strings", "why_tests_cant": "the effect of writing to released memory is invisible in most test runs", "anchors": ["lube/string.cpp:Strip", "lube/string.cpp:StringFunctor::operator()"]}
{"id": "C77", "title": "Removing a map entry removes its key", "statement": "For every map and valid position i, remove(i) leaves the map without the key at position i and leaves every other binding unchanged.", "quantifier": "all maps and positions", "why_tests_cant": "needs all maps and positions; the wrong result is again a well-formed map", "anchors": ["lube/var.cpp:var::remove"]}
{"id": "C78", "title": "JSON words read as their values", "statement": "The words true, false and null read as 1, 0 and nil wherever a value is expected, whichever delimiter follows.", "quantifier": "all contexts", "why_tests_cant": "all delimiters and continuations", "anchors": ["lube/json.cpp:JSON::doRaw"]}
{"id": "C79", "title": "JSON string literals denote the string they escape", "statement": "For every byte string, the string literal in which quotation marks and backslashes are escaped as JSON prescribes reads as that string.", "quantifier": "all byte strings", "why_tests_cant": "all strings and escapes", "anchors": ["lube/json.cpp:JSON::doString"]}
{"id": "C80", "title": "Moving a view keeps it inside the array", "statement": "For every view and every offset k, offset(k) and advance(k) either throw or yield a view all of whose in-range multi-indices address elements of the array.", "quantifier": "all views and offsets", "why_tests_cant": "all offsets, negative ones included", "anchors": ["lube/view.cpp:View::offset", "lube/var.h:var::advance"]}
{"id": "C81", "title": "swap exchanges the contents of two arrays", "statement": "After swap(a, b) on two arrays of the same shape, a has the elements b had and b those a had, and no other element changes.", "quantifier": "for all arrays of equal shape, including views into one array that do not overlap", "why_tests_cant": "the loop over rows passes the length of the whole array for each row; vectors hide this, and a test on one matrix may not notice writes behind the end", "anchors": ["lube/math.cpp:278-325", "lube/func.cpp:229-248"]}
{"id": "C82", "title": "Elements are never references", "statement": "After every program, no element of any array and no key or value of any map is a reference: assigning, pushing, inserting and initialising store what the reference denotes.", "quantifier": "all programs over the var interface", "why_tests_cant": "quantifies over every history; a reference stored in an element would be followed only on a later read", "anchors": ["lube/var.cpp:var::operator=", "lube/var.cpp:var::push", "lube/heap.cpp:Heap::append"]}
{"id": "C83", "title": "The storage of an array covers its size", "statement": "After every program, every array has at least as many places of storage as its size() reports, and a string one more for its terminator.", "quantifier": "all programs over the var interface, all sizes", "why_tests_cant": "failures need sizes at the edge of int and histories that mix growth and shrinkage", "anchors": ["lube/heap.cpp:allocSize", "lube/heap.cpp:Heap::resize"]}
{"id": "C84", "title": "Elements have the type of their array", "statement": "After every program, every place of an array holds what the type of the array says: a number, a var or a pair.", "quantifier": "all programs over the var interface", "why_tests_cant": "quantifies over every history of operations and failures", "anchors": ["lube/heap.cpp:Heap::alloc", "lube/heap.cpp:Heap::append", "lube/var.cpp:var::operator="]}
{"id": "C85", "title": "No operation uses memory that has been freed", "statement": "No program over the var interface reads or writes an array after its memory was returned.", "quantifier": "all programs over the var interface", "why_tests_cant": "depends on which references are alive when an array is replaced or resized", "anchors": ["lube/var.cpp:var::resize", "lube/var.cpp:var::push", "lube/heap.cpp:Heap::detach"]}
{"id": "C86", "title": "Self-assignment of an element changes nothing", "statement": "For every array x and index i below size(), x[i] = x[i] returns and leaves x as it was.", "quantifier": "all arrays, all indices", "why_tests_cant": "all arrays and element types; the temporary reference on the right is the element on the left", "anchors": ["lube/var.cpp:var::operator=", "lube/var.cpp:var::dereference"]}
{"id": "C87", "title": "Elements added by resize are nil", "statement": "For every array of vars, after x.resize(m) with m above size() every element from the former size on is nil.", "quantifier": "all arrays of vars and sizes", "why_tests_cant": "depends on what the array held before it was shrunk, so it needs histories and not just arrays", "anchors": ["lube/heap.cpp:Heap::resize", "lube/var.cpp:var::resize"]}
{"id": "C88", "title": "at() checks its index", "statement": "For every var x and index i outside 0 ... size() - 1, x.at(i) throws and changes nothing; for every index inside it denotes element i.", "quantifier": "all vars, all indices", "why_tests_cant": "an access outside the storage has no defined result a test could look at", "anchors": ["lube/var.cpp:var::at", "lube/var.cpp:var::reference"]}
{"id": "C89", "title": "shift returns the first element as a value", "statement": "For every non-empty array of vars, x.shift() returns the former first element itself, not a reference into the array, and the other elements keep their order.", "quantifier": "all arrays of vars", "why_tests_cant": "all arrays and element values, and the counts of what the elements refer to", "anchors": ["lube/heap.cpp:Heap::shift", "lube/var.cpp:var::shift"]}
{"id": "C90", "title": "Changing a string does not change the keys of maps", "statement": "For every map m and string variable k used as a key (m[k] = v), later changes to the characters of k leave the keys of m, and so the results of every lookup, as they were.", "quantifier": "all maps, keys and later element assignments", "why_tests_cant": "Tests use literal keys; whether the key is shared with a variable only matters for later updates of that variable, of which there are unboundedly many.", "anchors": ["lube/var.cpp:735-753", "lube/heap.cpp:394-445"]}
{"id": "C91", "title": "Copying one entry of a map to another key", "statement": "For every map m, key k in m and key j, m[j] = m[k] gives j the value of k and leaves every other entry as it was.", "quantifier": "all maps and pairs of keys", "why_tests_cant": "The result depends on whether j is new and how the keys are ordered, because inserting j moves the entry that the right side refers to.", "anchors": ["lube/var.cpp:276-339", "lube/var.cpp:735-753"]}
{"id": "C92", "title": "Assignment makes a variable the value, not a reference", "statement": "For every variable x that is not a reference and every expression e (literal, variable, element of an array, entry of a map, result of at()), x = e makes x the value of e itself, so that later assignments to the place it came from do not change x, and leaves every array as it was.", "quantifier": "all states, variables and expressions", "why_tests_cant": "Whether x holds a value or a reference shows only under later updates, and the reference counts involved depend on the whole history.", "anchors": ["lube/var.cpp:276-339", "lube/var.cpp:1271-1323"]}
{"id": "C93", "title": "Assigning to a reference changes the element it refers to", "statement": "For every reference r obtained from x[i] or m[k], r = e gives that element the value of e and changes nothing else.", "quantifier": "all arrays, maps, references and values", "why_tests_cant": "The effect depends on the type of the array, on what the value shares and on aliasing between r and e.", "anchors": ["lube/var.cpp:276-339"]}
{"id": "C94", "title": "A truncated document is rejected", "statement": "For every document read with read(), if its text ends before the root element is closed, read() throws and returns no value.", "quantifier": "all documents and all cut points", "why_tests_cant": "The parser is fed line by line and never told that the text is complete, so whether a cut is noticed depends on where it falls.", "anchors": ["lube/xmlfile.cpp"]}
{"id": "C95", "title": "What stands around the root element is ignored", "statement": "For every well-formed document, comments, processing instructions and white space before and after the root element do not change what read() returns.", "quantifier": "all documents and all text around the root", "why_tests_cant": "Tests use documents without such text, or one instance of it; the claim is about every kind and position.", "anchors": ["lube/xmlfile.cpp"]}
{"id": "C96", "title": "A command line that does not fit ends the program", "statement": "For every set of registered options and every argument vector in which an option that is not registered, or one whose argument is missing, follows valid items, parsing ends the program with the usage message and returns no options.", "quantifier": "all registrations and argument vectors", "why_tests_cant": "The offending option may follow any number of valid items, grouped or separate.", "anchors": ["lube/config.cpp:Option"]}
{"id": "C97", "title": "Elementwise functions give new arrays", "statement": "For every array of numbers x and every elementwise function f, f(x) is a new array of the same type that holds f of each element in order, and x and all other arrays are as they were; f(x, y) puts the values at the start of y and leaves the rest of y.", "quantifier": "all arrays, functions, and sharing of arrays", "why_tests_cant": "Whether other arrays keep their contents depends on how they are shared.", "anchors": ["lube/func.cpp:UnaryFunctor::operator()", "lube/func.cpp:UnaryFunctor::broadcast"]}
{"id": "C98", "title": "dot of two matrices is the matrix product", "statement": "For every array x whose last two dimensions are m by l and every l by n matrix y, dot(x, y) is a new array with last two dimensions m by n that holds the matrix product of each matrix of x with y, whether or not the operands are views of larger arrays; dimensions that do not fit throw an exception.", "quantifier": "all shapes, contents, element types and views", "why_tests_cant": "Storage by rows is multiplied by a routine for storage by columns; a swapped dimension shows only for some shapes.", "anchors": ["lube/math.cpp:Dot", "lube/clapack.cpp:gemm"]}
{"id": "C99", "title": "Laws of matrix multiplication", "statement": "For all matrices of fitting shapes, dot(dot(a, b), c) and dot(a, dot(b, c)) are equal arrays in exact arithmetic, and the transpose of dot(a, b) equals dot of the transpose of b and the transpose of a.", "quantifier": "all matrices of fitting shapes", "why_tests_cant": "The laws relate several operations on all shapes, and hold only if every one of them uses the layout in the same way.", "anchors": ["lube/math.cpp:Dot", "lube/transpose-adhoc.cpp"]}
{"id": "C100", "title": "dot with a vector is the inner product of every row", "statement": "For all vectors x and y of the same length, dot(x, y) is the sum of the products of the elements, those of x conjugated if complex; for an array x with rows of that length it is the array of the inner products of all rows; other lengths throw an exception.", "quantifier": "all lengths, shapes, contents and element types", "why_tests_cant": "The call for every row depends on offsets computed from the shape; lengths that do not fit may go unnoticed.", "anchors": ["lube/math.cpp:Dot", "lube/func.cpp:ArithmeticFunctor"]}
{"id": "C101", "title": "Sorting in place sorts every row and nothing else", "statement": "sort(x, x) for an array or view x puts the elements of every row (the last dimension) into ascending order: each row afterwards is an ordered rearrangement of the same row before, rows do not mix, and elements of the underlying storage outside of the view are unchanged. sort(x) returns such a result and leaves x alone.", "quantifier": "all arrays and views of any shape, offset and element type, all element values", "why_tests_cant": "tests sort a few small arrays; rows mixing, elements lost or elements outside of the view being touched depend on shape and offset", "anchors": ["lube/math.cpp:1191-1225", "lube/func.cpp:44-131", "lube/var.cpp:783-799"]}
{"id": "C102", "title": "asum gives the sum of absolute values of every row", "statement": "asum(x) is a number, the sum of the absolute values of the elements, for a vector, and an array with last dimension 1 holding that sum for every row for more dimensions.", "quantifier": "all arrays and views of any shape and offset, all element types and values (exact arithmetic)", "why_tests_cant": "the results for all shapes, offsets and values cannot be enumerated", "anchors": ["lube/math.cpp:786-866", "lube/func.cpp:96-131", "lube/clapack.cpp:164-174"]}
{"id": "C103", "title": "iamax finds the first element of largest absolute value in every row", "statement": "iamax(x) is the position, counted from 0, of the first element whose absolute value is not exceeded by any other one of the vector; for more dimensions, an array with last dimension 1 holding that position within each row.", "quantifier": "all arrays and views of any shape and offset, all element types and values", "why_tests_cant": "ties, position of the maximum and shape can occur in any combination", "anchors": ["lube/math.cpp:939-987", "lube/func.cpp:96-131", "lube/clapack.cpp:140-162"]}
{"id": "C104", "title": "concatenate joins arrays along the last dimension", "statement": "concatenate of a list of arrays with the same leading dimensions is a new array with these leading dimensions whose rows consist of the corresponding rows of the operands, one after another, completely; operands that do not fit together (leading dimensions, number of dimensions, types) are rejected by an exception.", "quantifier": "any number of operands of any shape, offset and type", "why_tests_cant": "number and shapes of operands are unbounded; a test shows a few combinations", "anchors": ["lube/math.cpp:1228-1302", "lube/func.cpp:333-410"]}
{"id": "C105", "title": "Pushing onto nil builds the array", "statement": "For every sequence of two or more numbers of one type, pushing them one after another onto a variable that is nil makes it an array of that type holding them in order; a single push makes the variable that number, and looking up a key in nil with at() throws and leaves it nil.", "quantifier": "all sequences and types of numbers, all states in which the variable is nil", "why_tests_cant": "the representation changes twice, from nil to number to array, and the sequence has any length", "anchors": ["lube/var.cpp:var::push", "lube/var.cpp:var::resize", "lube/var.cpp:var::operator[]"]}
{"id": "C106", "title": "A GEDCOM file is read as its individuals and families with links between them", "statement": "Reading a GEDCOM file gives a map with an array of the individuals and an array of the families of the file, in the order of the file, in which every individual has the name, title and sex given last in its record (nil if not given), and every family has husband, wife and children given as positions of the individuals whose cross references occur in the record; lines with other tags and anything after the trailer do not matter.", "quantifier": "all files made of a header, records of individuals, families and submitters in any number and order with any lines, and a trailer", "why_tests_cant": "records, lines, nesting and the order of references are unbounded; the reader keeps state from line to line, and a wrong level anywhere shifts everything after it", "anchors": ["lube/gedfile.cpp:187-246", "lube/gedfile.cpp:272-405"]}
{"id": "C107", "title": "Reading any file as GEDCOM ends with a well formed value or an exception", "statement": "For any bytes whatsoever, reading the file as GEDCOM terminates, and either throws or returns nil or a map of an array of individuals (name, title, sex: text or nil) and an array of families (husband, wife: nil or the position of an individual that is there; children: nil, such a position or an array of them).", "quantifier": "all files", "why_tests_cant": "the bytes are arbitrary; tests with malformed files cover a handful of ways to go wrong", "anchors": ["lube/gedfile.cpp:156-246", "lube/gedfile.cpp:272-405"]}
{"id": "C108", "title": "Unknown records and lines of a GEDCOM file are skipped", "statement": "Adding a record of a kind the reader does not know, or a line with a tag it does not know, to a GEDCOM file does not change the other individuals and families in the result.", "quantifier": "all files, all places at which the record or line is added, all tags and texts", "why_tests_cant": "the place and what follows are arbitrary; tests use files that the writer of the reader knows", "anchors": ["lube/gedfile.cpp:193-243", "lube/gedfile.cpp:277-279", "lube/gedfile.cpp:362-365"]}
{"id": "C109", "title": "A GEDCOM reader can be used again", "statement": "Reading a file with a reader that has read another file before gives the same result as reading it with a new reader.", "quantifier": "all pairs of files", "why_tests_cant": "any earlier file can leave something in the members; a test reads one file with each reader", "anchors": ["lube/gedfile.cpp:39-41", "lube/gedfile.cpp:169-177", "lube/gedfile.cpp:210-217"]}
{"id": "C110", "title": "presize() reserves and changes nothing else", "statement": "x.presize(n) leaves type, size and elements of x, and everything else, as they were; afterwards x can grow to n elements without memory being obtained again.", "quantifier": "all reachable states, all types and contents of x, all n", "why_tests_cant": "n may be smaller or larger than x, x may be a string, a number or nil; a test presizes one empty array", "anchors": ["lube/var.cpp:1227-1234", "lube/var.cpp:915-946", "lube/heap.cpp:225-271"]}
{"id": "C111", "title": "Appending raw data concatenates", "statement": "x.append(\"text\") and x.append(n, data) leave the elements of x followed by the data, keep a string terminated, and change no other variable or array; nil counts as empty.", "quantifier": "all reachable states, all contents of x, all data", "why_tests_cant": "whether memory has to grow depends on the history of x; tests append to a few strings", "anchors": ["lube/var.cpp:1035-1056", "lube/heap.cpp:172-183", "lube/var.cpp:901-912"]}
{"id": "C112", "title": "append(y) and the comma concatenate", "statement": "x.append(y), and equally x, y, leaves the elements of x followed by those of y (for an array of vars: by y itself), converted to the type of x, with y and all else unchanged; v = a, b, c makes the array of a, b and c.", "quantifier": "all reachable states, all contents of x and y, y being x or an element of an array among them", "why_tests_cant": "x and y may share storage and have any types and lengths; tests list a few numbers", "anchors": ["lube/var.h:119", "lube/var.h:143", "lube/var.cpp:1104-1140"]}
{"id": "C113", "title": "The Fourier transform of an array is that of each of its rows", "statement": "DFT(m)(x) is a new array with the shape of x but for the last dimension, m (complex) or m/2+1 (real), each row of which is the discrete Fourier transform of that row of x; IDFT(m) likewise, divided by m. DFT(m)(x, y) writes the same into y and nothing else.", "quantifier": "all sizes m, all shapes of x, all views x and y, all contents", "why_tests_cant": "every shape, size and view offset counts; tests transform one or two short vectors", "anchors": ["lube/dft-kiss.cpp:100-196", "lube/func.cpp:96-131"]}
{"id": "C114", "title": "The inverse Fourier transform undoes the transform", "statement": "IDFT(m)(DFT(m)(x)) has the shape, type and elements of x, without rounding.", "quantifier": "all sizes m, all arrays x with rows of m elements, real or complex", "why_tests_cant": "an identity over all inputs of all sizes; tests compare a few vectors within rounding", "anchors": ["lube/dft-kiss.cpp:47-196"]}
{"id": "C115", "title": "What cannot be Fourier transformed is refused", "statement": "A transform of a var it is not made for (another type, nil, rows of another length, a size the library lacks, input as output) throws an exception.", "quantifier": "all transforms, all vars", "why_tests_cant": "the size is fixed when the transform is made and the array comes later; a test of matching sizes says nothing about others", "anchors": ["lube/dft-kiss.cpp:47-142", "lube/var.cpp:634-643"]}
{"id": "C116", "title": "dir() lists the entries of a directory", "statement": "For every directory, path.dir() returns a map (nil if the directory is empty) whose keys are the paths of its entries, each once and in ascending order, whatever the order in which the system delivers them; the values are nil, or the parts of the path if they are asked for.  A path that does not exist is an exception.", "quantifier": "all file systems, directories and paths without NUL", "why_tests_cant": "Directories come in any size and order; a test has the one of its machine.", "anchors": ["lube/path.cpp:Path::dir"]}
{"id": "C117", "title": "rdir() lists everything below a directory", "statement": "For every directory, path.rdir() returns a map (nil if the directory is empty) whose keys are the paths of everything below it, at any depth and each once; symbolic links are listed but not followed, so that it ends also if they lead back.  For a file it returns the file.", "quantifier": "all file systems, of any depth, with any symbolic links", "why_tests_cant": "The depth and the shape of directory trees are not bounded.", "anchors": ["lube/path.cpp:Path::rdir"]}
{"id": "C118", "title": "tree() shows the structure of a directory", "statement": "For every directory, path.tree() returns a map from the names in it to nil for files and to maps made in the same way for directories, and this ends for every file system.", "quantifier": "all file systems, of any depth, with any symbolic links", "why_tests_cant": "The depth and the shape of directory trees are not bounded, and links can lead anywhere.", "anchors": ["lube/path.cpp:Path::tree"]}
{"id": "C119", "title": "The parts of a path make up the path", "statement": "For every path without doubled separators, the parent, stem and extension given by dir(true) and rdir(true) make up the path again; the extension begins with the last dot of the name and something stands before it.", "quantifier": "all paths", "why_tests_cant": "Names contain dots, separators and other characters in any arrangement.", "anchors": ["lube/path.cpp:bits"]}
{"id": "C120", "title": "toupper and tolower in place reach every string", "statement": "For every variable that is a string or holds strings nested in arrays and maps to any depth, or refers to such an element, x.toupper() and x.tolower() change every character of every string by the function of the C library, keep everything else, and change no other array.", "quantifier": "all variables, all nestings, all sharing of arrays between variables", "why_tests_cant": "The nesting, the sharing between variables and the references through which it is reached can be combined without bound.", "anchors": ["lube/string.cpp:StringFunctor::broadcast", "lube/string.cpp:ToUpper::string", "lube/string.cpp:ToLower::string"]}
{"id": "C121", "title": "toupper(x) and tolower(x) leave x alone", "statement": "For every string, and every array or map of strings, toupper(x) returns the same structure with new strings in which every character has been changed; x and all that is shared with it are as they were.", "quantifier": "all variables, all strings, all arrays and maps of strings", "why_tests_cant": "That nothing is changed through shared memory is a statement about all variables of a program.", "anchors": ["lube/string.cpp:StringFunctor::operator()", "lube/string.cpp:StringFunctor::alloc"]}
{"id": "C122", "title": "Replacing by a regular expression reaches every string", "statement": "For every variable that is a string or holds strings nested in arrays and maps to any depth, x.replace(re, str) puts a new string in the place of every string; copies of the old strings that other variables hold stay as they are, and no other array changes.", "quantifier": "all variables, all nestings, all functions on strings", "why_tests_cant": "The nesting and the sharing between variables can be combined without bound, and a replaced string may be longer or shorter.", "anchors": ["lube/string.cpp:Replace::string", "lube/string.cpp:StringFunctor::broadcast"]}
{"id": "C123", "title": "Matches are new strings", "statement": "For every string x and every regular expression, search and match return nil if nothing is found and otherwise an array of new strings, the match and its groups; x and all other arrays stay as they were.", "quantifier": "all strings, all results of the regular expression library", "why_tests_cant": "Strings and numbers of groups are not bounded, and that x stays as it was is about all that shares it.", "anchors": ["lube/string.cpp:Search::string", "lube/string.cpp:Match::string"]}
{"id": "C124", "title": "strip in place reaches every string", "statement": "For every variable that is a string or holds strings nested in arrays and maps to any depth, or refers to such an element, x.strip() takes the space at both ends off every string and changes no other array; all variables that share the strings see the change.", "quantifier": "all variables, all nestings, all sharing of arrays between variables", "why_tests_cant": "The nesting, the sharing and the references through which a string is reached can be combined without bound; what happens to memory released on the way is invisible in most runs.", "anchors": ["lube/string.cpp:Strip::string", "lube/string.cpp:StringFunctor::broadcast"]}
{"id": "C125", "title": "Instances of a module live as long as their loader", "statement": "In every program that does not copy loaders, and uses loaders and the instances they made while the loader exists, nothing undefined happens; each instance is deleted exactly once, by the destructor of its loader, before the library is closed, also if the call that made it threw.", "quantifier": "all programs, all libraries, whatever their factories do", "why_tests_cant": "Lifetimes over all interleavings of loading, creating, failing and destroying are not bounded.", "anchors": ["lube/module.cpp:module::create", "lube/module.cpp:module::~module", "lube/module.h:filemodule::create"]}
{"id": "C126", "title": "Libraries are closed again", "statement": "When all loaders have been destroyed, no library is open any more.", "quantifier": "all programs, all libraries", "why_tests_cant": "Open libraries are not visible in results.", "anchors": ["lube/module.cpp:module::module", "lube/module.cpp:module::~module"]}
{"id": "C127", "title": "Printed views can be read back", "statement": "For every view, reading the text it prints as JSON yields the array of its elements in row-major order and consumes the text.", "quantifier": "all views: shapes of any rank, offsets, elements", "why_tests_cant": "all shapes and element values; the text of the printer is read by a different piece of code", "anchors": ["lube/json.cpp:JSON::formatView", "lube/json.cpp:JSON::doArray", "lube/json.cpp:JSON::doRaw"]}
{"id": "C128", "title": "Plotting leaves the data unchanged", "statement": "Writing a list of commands and arrays to gnuplot changes none of the arrays.", "quantifier": "all lists of commands, numbers, arrays and views, with any sharing of storage", "why_tests_cant": "frame condition over all elements; depends on the order, types and shapes of the items", "anchors": ["lube/gnuplot.cpp:gnuplot::write", "lube/var.cpp:var::operator=", "lube/view.cpp:View::copyable"]}
{"id": "C129", "title": "Gnuplot receives the commands and the data", "statement": "Each string in the list is sent as a line, each number or vector as one number per line and a final e, each matrix column by column and a final e, in order; anything else is an exception.", "quantifier": "all lists, shapes and element values", "why_tests_cant": "all sizes and combinations; needs gnuplot as receiver", "anchors": ["lube/gnuplot.cpp:gnuplot::write", "lube/gnuplot.cpp:gnuplot::puts"]}
{"id": "C130", "title": "New vertices are new", "statement": "Whatever vertices and edges have been added before, addVertex returns a number that has not been returned or used in an edge before.", "quantifier": "all sequences of calls of addVertex and addEdge with numbers that are not negative", "why_tests_cant": "all sequences of calls", "anchors": ["lube/graph.cpp:Graph::addVertex", "lube/graph.cpp:Graph::addEdge"]}
{"id": "C131", "title": "A graph that is written is complete", "statement": "After any sequence of calls writeGraphViz writes every vertex and every edge.", "quantifier": "all sequences of calls", "why_tests_cant": "all sequences of calls", "anchors": ["lube/graph.cpp:Graph::writeGraphViz", "lube/graph.cpp:LabelWriter", "lube/var.cpp:var::index"]}
{"id": "C132", "title": "An error says what was thrown and where", "statement": "what() of a thrown libube::error is the message in quotation marks followed by one line for each function on the call stack, with its demangled name.", "quantifier": "all messages, all call stacks, all results of the demangler", "why_tests_cant": "the call stack of a running program is arbitrary; tests only see their own", "anchors": ["lube/var.cpp:error::error", "lube/var.cpp:error::backTrace", "lube/var.cpp:error::what"]}
{"id": "C133", "title": "Errors do not leak memory", "statement": "Constructing and destroying an error frees every block that was allocated for its text.", "quantifier": "all messages, all call stacks, all results of the demangler", "why_tests_cant": "the call stack of a running program is arbitrary, and tests do not see lost memory", "anchors": ["lube/var.cpp:error::backTrace"]}
{"id": "C134", "title": "Every value has a type name", "statement": "typeStr() and atypeStr() give every value the name of its type, for arrays with that of the elements; different types have different names, and asking changes nothing.", "quantifier": "all values, variables that refer to elements, states of memory", "why_tests_cant": "all values and references, and the absence of effects on all of memory", "anchors": ["lube/var.cpp:var::typeStr", "lube/var.cpp:var::atypeStr"]}
{"id": "C135", "title": "Array operations work on views", "statement": "push, pop and shift on a view add or remove an element of the view and leave elements outside of it alone.", "quantifier": "all views: shapes, offsets, elements, room in the description", "why_tests_cant": "all shapes and offsets; what happens depends on what lies behind the view in memory", "anchors": ["lube/var.cpp:var::push", "lube/var.cpp:var::pop", "lube/var.cpp:var::shift", "lube/heap.cpp:Heap::resize", "lube/heap.h:View::size"]}
{"id": "C136", "title": "pow raises every element to the power of the exponent", "statement": "For every array x of numbers and every number y, x.pow(y) replaces every element of x by its power with exponent y and pow(x, y) is a new array of the same shape with these powers, leaving x alone; for an array y of the shape of the trailing dimensions of x, the exponents are the corresponding elements of y.", "quantifier": "all element types, shapes, views and exponents, also elements of x as exponents", "why_tests_cant": "the element types and the aliasing of exponent and array combine with all shapes; an array of complex numbers that shrinks to one element may go unnoticed", "anchors": ["lube/math.cpp:189-211", "lube/func.cpp:257-299", "lube/var.h:161"]}
{"id": "C137", "title": "An element of a view is the element of the array", "statement": "For every view v and every index in range, v(i, ...) is the element of the array the index stands for: defined, type, size, value, comparisons and [] answer as for that element.", "quantifier": "all views, shapes, offsets, element types, indices, and all values compared with", "why_tests_cant": "all shapes, offsets and element types; for views of vars it depends on virtual functions that only some classes override", "anchors": ["lube/heap.h:View", "lube/heap.cpp:Heap::deref", "lube/heap.cpp:Heap::derefHeap", "lube/var.cpp:var::heap", "lube/var.cpp:var::defined", "lube/var.cpp:var::dereference"]}
{"id": "C138", "title": "Views are searched and sorted as arrays", "statement": "index() of a view returns the position of the first element equal to the argument, or -1, and sort() an array of the elements in ascending order, as for the array of the elements the view shows.", "quantifier": "all views, shapes, offsets, element types and arguments", "why_tests_cant": "all contents of views; element types reach different code", "anchors": ["lube/var.cpp:var::index", "lube/var.cpp:var::sort", "lube/var.cpp:var::binary", "lube/heap.h:View"]}
{"id": "C139", "title": "Conversion to an integer keeps the number", "statement": "cast<int>() and cast<long>() of a number yield its integer part, of a string the decimal number it begins with; if there is none, or it does not fit, an exception is thrown.  What is written for an integer is converted to the integer again.", "quantifier": "all values, all strings", "why_tests_cant": "all strings and all numbers of all types; conversions out of range are undefined and may look right", "anchors": ["lube/var.cpp:129-149", "lube/var.cpp:647-700"]}
{"id": "C140", "title": "Arrays made with a size or a shape are full of the value given", "statement": "var(n, x) is an array of n elements x, var(shape, x) and view(shape, x) an array of that shape with all elements x; the arguments are left alone.", "quantifier": "all sizes, shapes and values", "why_tests_cant": "all sizes and shapes; memory that is not set may look right in a test", "anchors": ["lube/var.cpp:451-459", "lube/var.cpp:469-474", "lube/var.cpp:1383-1408"]}
{"id": "C141", "title": "An initialiser list becomes the array of its elements", "statement": "var({x, y, ...}) is the array of the elements of the list in this order, and an array of C strings the array of the strings.", "quantifier": "all lists of values", "why_tests_cant": "all combinations of types in a list of any length", "anchors": ["lube/var.cpp:462-466", "lube/var.cpp:420-426", "lube/var.cpp:443-449", "lube/var.cpp:var::push"]}
{"id": "C142", "title": "Functions of arrays are applied to every element", "statement": "A function such as exp, sqrt or abs called on an array or a view replaces (or returns) every element's value converted to the type of the result, changes nothing else, and keeps the shape; the result of abs, real, imag, norm and arg has the real type belonging to the type of the argument.", "quantifier": "all functions, all arrays and views of all shapes, all contents, all given outputs", "why_tests_cant": "all arrays, shapes and overlaps of input and output", "anchors": ["lube/math.cpp:76-105", "lube/math.cpp:129-186", "lube/func.cpp:20-48", "lube/func.cpp:96-111"]}
{"id": "C143", "title": "Programs with arrays and views free every array exactly when nothing refers to it", "statement": "In a program that declares variables, assigns, clears and copies them, makes views of them and sets and reads elements, no statement uses or frees memory that has been freed, an array or view is allocated exactly as long as a variable, an element of an array or a view refers to it, and when all variables are gone all memory has been freed.", "quantifier": "all programs of these statements, all nestings of arrays and views, exceptions included", "why_tests_cant": "programs, nestings and orders of destruction are unbounded; memory that is lost shows in no result", "anchors": ["lube/var.cpp:319-338", "lube/var.cpp:1271-1323", "lube/view.cpp:View::View", "lube/view.cpp:View::~View", "lube/heap.cpp:281-309"]}
{"id": "C144", "title": "A view refers to the array itself, a copy has its own storage, assignment shares", "statement": "x = y.view(shape) makes x a view of the array that y holds or is a view of, never of a view; x = y.copy() makes x refer to new storage that nothing else refers to, with the same contents; x = y makes both refer to the same; x[i] = y and x = y[i] set and read the var of the array, also through a view.", "quantifier": "all states that programs of these statements get to, all variables", "why_tests_cant": "all histories of views of views, copies and assignments", "anchors": ["lube/view.cpp:View::View", "lube/var.cpp:var::view", "lube/var.cpp:var::copy", "lube/var.cpp:319-338", "lube/view.cpp:153-167"]}
{"id": "C145", "title": "Functors that own memory free it exactly once", "statement": "DFT, IDFT, Search, Match and Replace functors may be made, copied, assigned, called and destroyed in any order: no memory is used or freed after it has been freed, all of it has been freed when the functors are gone, and the FFT library is told to clean up when the last transform has gone and not before.", "quantifier": "all programs that make, copy, assign, call and destroy functors, all arguments of the constructors", "why_tests_cant": "programs are unbounded; memory that is freed twice or lost need not show", "anchors": ["lube/dft-kiss.cpp:DFTBase::DFTBase", "lube/dft-kiss.cpp:DFTBase::~DFTBase", "lube/string.cpp:RegExFunctor::RegExFunctor", "lube/string.cpp:RegExFunctor::~RegExFunctor", "lube/dft.h:28-41", "lube/regex.h:21-29"]}
{"id": "C146", "title": "Documents read from XML files do not depend on one another", "statement": "Whatever a program does with one document, every other document read before or later holds what was in its file, and can be written again.", "quantifier": "all programs that read any XML documents in any order and change elements of documents read before", "why_tests_cant": "needs a program that changes a document in place and then looks at another one; programs are unbounded", "anchors": ["lube/xmlfile.cpp:Expat::element", "lube/xmlfile.cpp:Expat::startElementHandler", "lube/xmlfile.cpp:XMLWriter::writeElem"]}
{"id": "C147", "title": "String functions are defined for all texts", "statement": "toupper, tolower, split at white space and strip have a defined result for every text of any bytes, and treat bytes beyond ASCII as characters that are neither letters nor white space.", "quantifier": "all strings of any bytes, where char is signed and where it is not", "why_tests_cant": "what the C standard leaves undefined usually seems to work in a test; the number of strings is unbounded", "anchors": ["lube/string.cpp:ToUpper::string", "lube/string.cpp:ToLower::string", "lube/string.cpp:Strip::string", "lube/string.cpp:177-206"]}
{"id": "C148", "title": "Transposition does not depend on the library it is built with", "statement": "Built with the MKL, transpose of an array or view gives what it gives when built without: the same elements, the same shape, the same exceptions, in place and to a new array.", "quantifier": "all arrays and views of any rank, shape and element type", "why_tests_cant": "the number of shapes is unbounded, and one build has only one of the two implementations", "anchors": ["lube/transpose-mkl.cpp:Transpose::vector", "lube/transpose-mkl.cpp:Transpose::alloc", "lube/transpose-mkl.cpp:Transpose::scalar", "lube/transpose-adhoc.cpp:Transpose::vector"]}
{"id": "C149", "title": "With the MKL, transforms of all sizes and of single and double precision are computed", "statement": "Built with the MKL, DFT and IDFT of real and complex numbers compute the discrete Fourier transform of each row and its inverse, for odd sizes too and in single and double precision, and the inverse undoes the transform.", "quantifier": "all sizes, all ranks and shapes, all elements, the four types the constructor has code for", "why_tests_cant": "sizes and shapes are unbounded, and what is computed is an equation over all numbers", "anchors": ["lube/dft-mkl.cpp:DFTBase::DFTBase", "lube/dft-mkl.cpp:DFTBase::alloc", "lube/dft-mkl.cpp:DFTBase::scalar", "lube/dft-mkl.cpp:DFTBase::vector"]}
{"id": "C150", "title": "Transforms in single precision do not depend on the library", "statement": "A complex transform of any size, or a real one of even size, in single precision has the same outcome with the MKL as with Kiss FFT: the same arrays, the same exceptions, for every input and every output.", "quantifier": "all sizes, all vars as input and output, forward and inverse", "why_tests_cant": "one build has only one of the two libraries; inputs are unbounded", "anchors": ["lube/dft-mkl.cpp:DFTBase::scalar", "lube/dft-mkl.cpp:DFTBase::vector", "lube/dft-kiss.cpp:DFTBase::scalar", "lube/dft-kiss.cpp:DFTBase::vector"]}
{"id": "C151", "title": "Transforms with the MKL free their memory and descriptor exactly once", "statement": "Built with the MKL, DFT and IDFT functors may be made, copied, assigned, called and destroyed in any order, whatever the library answers: no memory or descriptor is used or freed after it has been freed, all have been freed when the functors are gone, and the program goes on after an error of the library.", "quantifier": "all programs of these statements and all answers of the library", "why_tests_cant": "A program that frees twice or loses a descriptor gives the right transform; failures of the library cannot be produced at will.", "anchors": ["lube/dft-mkl.cpp:DFTBase::DFTBase", "lube/dft-mkl.cpp:DFTBase::~DFTBase", "lube/dft.h:DFTBase"]}
{"id": "C152", "title": "A Qwt plot shows the curves given since it was made", "statement": "After plot(), calls of curve(x, y, title) and axes(x, y) with arrays or views of doubles show every curve given since the last plot(), in order: point i is (x[i], y[i]) for as many as both have, with its title; the axes carry the titles given last. Before plot() they are undefined.", "quantifier": "all sequences of calls, all arrays and views of doubles, all strings without NUL", "why_tests_cant": "It needs a display, and the state is reached by arbitrary sequences of calls.", "anchors": ["lube/qwt.cpp:MQwt::plot", "lube/qwt.cpp:MQwt::curve", "lube/qwt.cpp:MQwt::axes"]}
{"id": "C153", "title": "Complex numbers survive being moved in arrays", "statement": "The elements of an array keep their values when the library copies or moves them within arrays: after x[i] = x[j] element i equals the former element j, x.remove(i) leaves the other elements as they were, x.insert(y, p) and x.append(y) the elements of x and those of y. This holds for complex numbers as for all others.", "quantifier": "for all arrays of numbers of one type, in all states a program can reach, and all indices", "why_tests_cant": "Tests move a few real numbers; complex ones are tested for arithmetic only, and real-valued ones survive.", "anchors": ["lube/var.cpp:Cast<T>::scalar", "lube/var.cpp:var::insert", "lube/var.cpp:var::remove", "lube/var.cpp:var::append"]}
{"id": "C154", "title": "An element of an array can be given to operations on it", "statement": "For every array x of numbers and valid indices, x.push(x[j]), x.unshift(x[j]), x.insert(x[j], p) and x.append(x[j]) do what they do for a number of the value that x[j] had before, and an operation that throws leaves the array as it was; the same holds for elements of other arrays given to insert.", "quantifier": "all arrays of all types of numbers, all indices and positions, all histories", "why_tests_cant": "the outcome depends on when the reference is read relative to moving and reallocating elements, for all sizes and positions", "anchors": ["lube/var.cpp:var::push", "lube/var.cpp:var::insert", "lube/heap.cpp:Heap::unshift", "lube/heap.cpp:Heap::derefInt"]}
{"id": "C155", "title": "Elements can be inserted in and removed from views", "statement": "insert, remove and unshift on a view of numbers change its size by one and its elements as those of a list, presize changes nothing that can be observed, and elements of the array outside of the view stay as they are.", "quantifier": "all views: shapes, offsets, elements, positions, room in the description", "why_tests_cant": "all shapes and offsets; what happens depends on the description of the view and on what lies behind it in memory", "anchors": ["lube/var.cpp:var::insert", "lube/var.cpp:var::remove", "lube/var.cpp:var::presize", "lube/heap.cpp:Heap::unshift", "lube/heap.cpp:Heap::resize", "lube/heap.h:View::size"]}
{"id": "C156", "title": "Arrays that would be too large are refused", "statement": "An operation that would make an array of numbers larger than the library can represent (2^30 elements, for a string one less for its NUL) fails in a defined way, with an exception, and leaves the array as it was; up to that size, push adds its value.", "quantifier": "all arrays of numbers in all states a program can reach, and all sizes and values: push, unshift, append, assignment to an element, resize", "why_tests_cant": "an array of 2^30 elements takes up to 16 GB; no test makes one, and behaviour past the end of memory cannot be observed reliably", "anchors": ["lube/heap.cpp:allocSize", "lube/heap.cpp:Heap::resize", "lube/heap.cpp:Heap::alloc", "lube/heap.cpp:Heap::unshift", "lube/var.cpp:var::push"]}
{"id": "C157", "title": "Arithmetic on a number changes that number only", "statement": "x op= y for numbers x and y, each a variable, an element of an array or the value of a key, makes x the result, of the type of x, with y converted to that type, and changes nothing else: no other element, variable or array; x op y is a new number and changes nothing. x and y may be the same element. If x is nil, an exception is thrown and nothing changes.", "quantifier": "all states a program can reach, all numbers of all types, all five operations, all positions", "why_tests_cant": "aliasing between operands, elements and copies depends on the history of the program; tests look at the result, not at everything else", "anchors": ["lube/math.cpp:Add::scalar", "lube/math.cpp:Pow::scalar", "lube/func.cpp:BinaryFunctor::operator()", "lube/var.cpp:var::varderef"]}
{"id": "C158", "title": "Arithmetic on arrays works element by element", "statement": "x op= y for data x (arrays, arrays of vars, maps, nested to any depth) and a number y changes every number in x exactly once and keeps the structure; for arrays x and y of one type it combines the elements in order; x op y gives a new value and leaves x alone. y may be an element of x and stands for the value it had before.", "quantifier": "all data of any depth and size, all states a program can reach, all five operations", "why_tests_cant": "all nestings, element types and aliasing; the writing is by untyped pointers, so errors corrupt memory rather than fail", "anchors": ["lube/func.cpp:ArithmeticFunctor::broadcast", "lube/math.cpp:Mul::scale", "lube/math.cpp:Add::vector", "lube/func.cpp:BinaryFunctor::alloc"]}
{"id": "C159", "title": "Arithmetic on arrays that do not fit is refused", "statement": "x op= y and x op y for arrays x and y that cannot be combined (different element types, different sizes, a type the operation does not take, division or power of arrays) throw an exception, and no variable or array changes. A second array with one element counts as a number.", "quantifier": "all arrays of any size and type, all states a program can reach, all five operations", "why_tests_cant": "all pairs of types and sizes; a missing check shows as memory read past the end, not as a failure", "anchors": ["lube/func.cpp:ArithmeticFunctor::broadcast", "lube/func.cpp:BinaryFunctor::vector", "lube/math.cpp:Add::vector", "lube/math.cpp:Sub::vector", "lube/math.cpp:Mul::vector"]}
{"id": "C160", "title": "insert and remove refuse positions outside the array", "statement": "x.remove(i) with i not below x.size(), and x.insert(y, p) with p above x.size(), throw a range_error; nothing changes, also if y is x itself or shares its elements. The size of a number is 1 and that of nil is 0.", "quantifier": "all arrays of any size and type, arrays of vars and maps, numbers and nil, all states a program can reach, all positions", "why_tests_cant": "the position is any number and the array has any size; at() itself does not check", "anchors": ["lube/var.cpp:var::insert", "lube/var.cpp:var::remove"]}
{"id": "C161", "title": "Moving a variable leaves it nil and loses nothing", "statement": "`var y = std::move(x)` makes y exactly what x was (a number, an array, or a reference to an element) and x nil, without touching any array or its count. `x = std::move(y)` makes x what y shows and y nil; `x = std::move(x)` keeps what x shows, where a reference becomes the value itself; `r = std::move(y)` for a reference r to an element of an array of vars replaces that element, and `x.push(std::move(y))` appends to an array of vars; in each case y is nil afterwards and no other array changes.", "quantifier": "all reachable states of programs over vars; all variables, as source and as target, that are numbers, nil, arrays of any type, or references to elements that are not cdouble (for the last two forms the source is no reference)", "why_tests_cant": "A test moves a few values; the claim is about every state of sharing between variables, arrays and references, and about counts that a test does not see.", "anchors": ["lube/var.cpp:348-359", "lube/var.cpp:276-339"]}
{"id": "C162", "title": "std::swap exchanges two variables", "statement": "After `std::swap(x, y)` each variable is what the other showed before, and nothing else changes; it works for one variable with itself. If both are references to elements of an array, the elements are exchanged.", "quantifier": "all reachable states; all pairs of variables, the same one twice included, that are values or references to elements that are not cdouble", "why_tests_cant": "Tests swap numbers or arrays; what happens to references depends on the state of both and on the order of three moves.", "anchors": ["lube/var.cpp:348-359", "lube/var.cpp:276-339"]}
{"id": "C163", "title": "INI data written can be read back", "statement": "Writing to an INI file what `read` returned, or any map of sections, and reading that file gives the same sections with the same keys and values.", "quantifier": "all maps of sections, in particular all that `read` returns for well-formed files; all lengths", "why_tests_cant": "One case that comes back equal would not settle it for all maps, and a case that fails says nothing about the others: whether any map with an entry at all survives is a statement about every map.", "anchors": ["lube/inifile.cpp:74-81", "lube/inifile.cpp:33-72"]}
{"id": "C164", "title": "Ranges of floating point numbers are the progression", "statement": "For finite `float` or `double` lo, hi and step > 0, `irange(lo,hi,step)` returns exactly lo, lo+step, lo+2\u00b7step, \u2026 below hi and `range` the same up to and including hi; `irange(hi)` and `range(hi)` give the whole numbers below hi from 0 and up to hi from 1; all of them return, also if the bounds are of different types.", "quantifier": "all finite numbers of both formats, all steps, all mixtures of types", "why_tests_cant": "Rounding depends on every bit of the numbers; that steps drift or are lost altogether shows only for some of 2^192 triples.", "anchors": ["lube/var.cpp:irange", "lube/var.cpp:range", "lube/math.cpp:Add::scalar"]}
{"id": "C165", "title": "irange and range leave their arguments as they are", "statement": "A call `irange(lo, hi, step)` or `range(lo, hi, step)` returns a new var with the numbers of the progression; the variables, elements of arrays and values of keys given as arguments, and everything else, are afterwards what they were before.", "quantifier": "all reachable states of the memory; all numbers; arguments that are numbers, variables or elements", "why_tests_cant": "The parameters are vars passed by value, so that a test with variables shows no change; whether some argument in some state is written to is a question about all kinds of argument.", "anchors": ["lube/var.cpp:irange", "lube/var.cpp:range", "lube/var.cpp:var::push"]}
{"id": "C166", "title": "Values pushed onto nil build the array of them", "statement": "For every sequence of values (nil, numbers, strings, arrays), pushing them one after another onto a variable that is nil makes it an array holding exactly these values in order, and changes no other variable and no other array.", "quantifier": "all sequences of values of any kind and length, all reachable states in which the variable is nil", "why_tests_cant": "The representation of the array is chosen by the first value pushed, so that it depends on the sequence what a push does; the arrays pushed may be shared in any way.", "anchors": ["lube/var.cpp:var::push", "lube/var.cpp:var::resize", "lube/var.cpp:var::operator[]"]}
{"id": "C167", "title": "Writing an XML document leaves the data as it is", "statement": "xmlfile write(file, v) changes nothing in v, neither in the elements nor in what is inside them, whether it returns or throws; writing it a second time writes the same file.", "quantifier": "all vars v given to the writer, of any depth, documents or not", "why_tests_cant": "The writer goes through the tree by subscripts, which can change what they are applied to, and through references into the caller's tree; a test writes a few documents and looks at the file, not at the tree.", "anchors": ["lube/xmlfile.cpp:XMLWriter::writeElem", "lube/xmlfile.cpp:XMLWriter::write", "lube/var.cpp:711-721", "lube/var.cpp:901-912"]}
{"id": "C168", "title": "Printing a value ends, depends on the data only and changes nothing", "statement": "For every variable that is nil, a number, a string or arrays and maps nested to any depth, shared or not, or a reference to such an element, `std::cout << x` ends, the text is that of the data whatever arrays are shared and wherever they are, and afterwards every variable, every array and every reference count is as it was.", "quantifier": "for all reachable states, all variables and all nested data", "why_tests_cant": "Nesting and sharing are unbounded, and copies, temporary references and dereferenced copies made while printing must cancel out in every count; tests print a few values and cannot see counts, and data that contain themselves are never printed in tests.", "anchors": ["lube/json.cpp:JSON::format", "lube/json.cpp:JSON::formatArray", "lube/json.cpp:operator <<", "lube/var.cpp:var::operator []", "lube/var.cpp:var::at", "lube/var.cpp:var::key", "lube/heap.cpp:Heap::key"]}
{"id": "C169", "title": "What is printed of a variable is read back to the same data", "statement": "For every variable of a program, however its data came about and whatever shares them, the text of `std::cout << x` read with `>>` gives the same data (integers as long, arrays of integers dense), with nothing left over; and two variables with the same data have the same text.", "quantifier": "for all reachable states, all variables and all nested data", "why_tests_cant": "Whether text comes back depends on every character and every nesting of data held in shared arrays of a running program; tests read back the text of a few literals.", "anchors": ["lube/json.cpp:JSON::format", "lube/json.cpp:JSON::formatArray", "lube/json.cpp:JSON::doArray", "lube/json.cpp:JSON::doValue", "lube/json.cpp:operator <<"]}
{"id": "C170", "title": "Comparing variables tells what their data say and changes nothing", "statement": "For any two variables in any state a program can reach, themselves values or references to elements, `x == y` is true exactly if both hold the same data (numbers of the same type and value; arrays of equally many elements that are the same one by one, however stored), `x != y` is the opposite, and `x < y` for numbers, characters and strings follows their order. No array, element, reference or reference count is different afterwards, although the operators copy their parameter and make temporaries for elements.", "quantifier": "All reachable states, all pairs of variables (also the same variable, references, shared and nested arrays and maps)", "why_tests_cant": "Aliasing, nesting and reference counts give unboundedly many states; a test compares a few literals and does not observe the counts, and comparisons that never end cannot be told from slow ones.", "anchors": ["lube/var.cpp:508-538", "lube/var.cpp:546-575", "lube/heap.cpp:392-465"]}
{"id": "C171", "title": "Looking for data in a variable finds the first place and changes nothing", "statement": "For any two variables in any state a program can reach, themselves values or references to elements, `x.index(y)` is the first place of the array `x` whose element is the same as `y`, or -1 if there is none; for a map it is the place of the key that is the same as `y`, or -1. `x.binary(y)` for elements in order is the number of elements before `y`. No array, element, reference or reference count is different afterwards, although a temporary is made for each element or key looked at.", "quantifier": "All reachable states, all pairs of variables (arrays of any type and length, maps, references, `y` an element of `x`)", "why_tests_cant": "The number of elements, their nesting and sharing are unbounded; a test looks for a few things in a few arrays and does not see reference counts.", "anchors": ["lube/var.cpp:1194-1214", "lube/var.cpp:1329-1348", "lube/heap.cpp:438-444"]}
{"id": "C172", "title": "Sorting makes a new array and leaves all else alone", "statement": "For a variable x that is an array, a string or a map whose elements (values) are scalars of one type or strings, y = x.sort() declares a new array, at an address no other variable uses, with the elements of x in non-descending order; x and every other variable keep their value, no existing array is changed in place, and an element of y that is an array is the same array as an element of x, not a copy.", "quantifier": "all states reachable by programs of the memory model, all variables with a value, all numbers of elements up to 2^30", "why_tests_cant": "Aliasing after a sequence of insertions that move elements and reallocate cannot be exhausted by cases; a test sees equal values whether arrays are shared or not, and does not see reference counts.", "anchors": ["lube/var.cpp:var::sort", "lube/var.cpp:var::binary", "lube/var.cpp:var::insert"]}
{"id": "C173", "title": "Comparing, searching and printing change nothing", "statement": "x == y, x != y, x < y, x.index(y) and std::cout << x leave every variable what it is, and every array that a variable holds, directly or as an element of an element, with the type, the size and the elements it has, whether the call returns or throws.", "quantifier": "all states reachable by programs of the memory model, whatever the variables are (undefined, references, cyclic, complex), all results and exceptions", "why_tests_cant": "Operands are copied, references are taken with the non-const operator [], which can resize and wrap, and temporaries are detached; a test sees that one comparison left one structure alone, not that none ever writes through a shared pointer.", "anchors": ["lube/var.cpp:var::operator !=", "lube/var.cpp:var::operator <", "lube/var.cpp:var::index", "lube/json.cpp:JSON::formatArray"]}
{"id": "C174", "title": "top() is the last element and changes nothing", "statement": "For an array that is not empty, y = x.top() refers to its last element, so after any sequence of push, pop and other operations it shows what is on top; no variable and no array is changed. The top of a number is the number. For an empty array or nil the call is refused with an exception.", "quantifier": "all states reachable by programs of the memory model, all arrays of all element types, all sequences of operations", "why_tests_cant": "The index is computed from the size and encoded in the type of the result, so the empty array is a boundary case whose encoding coincides with another type; a test of a few stacks says nothing about all sequences of operations or about what is shared.", "anchors": ["lube/var.h:138-138", "lube/var.cpp:var::at", "lube/var.cpp:var::reference"]}
{"id": "C175", "title": "The comparison operators agree with each other", "statement": "For all x and y exactly one of x < y, x == y and x > y holds; x <= y holds exactly if x < y or x == y, x >= y exactly if x > y or x == y; <= is transitive and total.", "quantifier": "all pairs and triples of values", "why_tests_cant": "all values, including mixed types, NaN and nested arrays", "anchors": ["lube/var.h:102-104", "lube/var.cpp:var::operator <"]}
{"id": "C176", "title": "Unary minus negates every element into a new array", "statement": "For every numeric array or view x, -x is a new array of the same type and shape that holds the negatives of the elements of x, x is unchanged, and -(-x) holds the elements of x.", "quantifier": "all arrays and views of all numeric types", "why_tests_cant": "all types, shapes, sizes and contents", "anchors": ["lube/var.h:113", "lube/math.cpp:Mul::scale"]}
{"id": "C177", "title": "Arithmetic on integers is that of the integers", "statement": "For all integers x and y held as char, int or long, x + y, x - y, x * y and x / y hold the sum, the difference, the product and the quotient without the part behind the point, and x + y and x * y are y + x and y * x.", "quantifier": "all pairs of integers of all types", "why_tests_cant": "all values, also at the limits of the types", "anchors": ["lube/math.cpp:Add::scalar", "lube/math.cpp:Sub::scalar", "lube/math.cpp:Mul::scalar", "lube/math.cpp:Div::scalar", "lube/var.h:109-113"]}
{"id": "C178", "title": "Arithmetic on floating point numbers gives a closest number", "statement": "For all floats and doubles x and y, x + y, x - y, x * y and x / y hold a number of the type than which no other is closer to the exact result, and x + y and x * y are y + x and y * x.", "quantifier": "all pairs of floating point numbers", "why_tests_cant": "all bit patterns of both types", "anchors": ["lube/math.cpp:Add::scalar", "lube/math.cpp:Sub::scalar", "lube/math.cpp:Mul::scalar", "lube/math.cpp:Div::scalar"]}
{"id": "C179", "title": "Arithmetic on complex numbers works part by part", "statement": "For all complex numbers x and y of a type, the real and imaginary parts of x + y and x - y are the numbers closest to the exact ones, x * y is exact for whole parts that are not too large, and x + y and x * y are y + x and y * x.", "quantifier": "all pairs of complex numbers", "why_tests_cant": "all bit patterns of four parts", "anchors": ["lube/math.cpp:Add::scalar", "lube/math.cpp:Sub::scalar", "lube/math.cpp:Mul::scalar", "lube/var.cpp:646-700"]}
{"id": "C180", "title": "x op= y computes what x op y does", "statement": "For all arrays and views x and all y that can be combined with it, x op= y leaves in x the elements that x op y has, x op y changes neither operand, and x op= y changes nothing but x.", "quantifier": "all arrays, views and operations", "why_tests_cant": "all shapes, types, ways of sharing and values", "anchors": ["lube/var.h:105-112", "lube/func.cpp:BinaryFunctor::broadcast", "lube/math.cpp:Add::scalar"]}
{"id": "C181", "title": "Arithmetic on floating point numbers keeps their order", "statement": "For all finite x, y and z of one floating point type with x <= y: x + z <= y + z, x - z <= y - z and z - y <= z - x; x * z <= y * z and x / z <= y / z if z is positive, the other way round if it is negative. x - y is zero exactly if x equals y, and exact if neither is more than twice the other. x + 0, x - 0, x * 1 and x / 1 are x, and x / x is 1 unless x is zero.", "quantifier": "all triples of finite numbers of either type", "why_tests_cant": "all bit patterns of both types; the results are rounded", "anchors": ["lube/math.cpp:Add::scalar", "lube/math.cpp:Sub::scalar", "lube/math.cpp:Mul::scalar", "lube/math.cpp:Div::scalar", "lube/var.cpp:var::operator <"]}
{"id": "C182", "title": "Conversion to a floating point type gives the closest number", "statement": "cast<float>() and cast<double>() of a number yield the number of the type closest to it, and keep the order of numbers, also of different types. A float converted to double and back is the same, and so is an integer converted to a floating point type and back.", "quantifier": "all numbers of all types that are not complex", "why_tests_cant": "all bit patterns and all integers, in particular those that are rounded to a power of two", "anchors": ["lube/var.cpp:646-700", "lube/var.h:124"]}
{"id": "C183", "title": "The sum of an array of floating point numbers is close to the exact one", "statement": "sum(x) of an array of finite float or double adds the elements of each row in their order. A finite result differs from the exact sum by at most ((1+u)^(n-1) - 1) times the sum of the magnitudes of the n elements, with u = 2^-24 for float and 2^-53 for double. If no element is smaller, the sum is not smaller. Whole numbers whose magnitudes make at most 2^24 or 2^53 are added exactly.", "quantifier": "all non-empty arrays and views of finite floats or doubles, of any length and shape", "why_tests_cant": "the bound is for all lengths and all elements; a test compares a few sums with a tolerance", "anchors": ["lube/math.cpp:Sum::vector", "lube/math.cpp:900-908", "lube/func.cpp:96-131"]}
