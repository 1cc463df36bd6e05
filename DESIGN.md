# Formal model of libube in Lean 4

The sources under `/repo/lube` are modelled function by function in Lean 4 (4.33.0).
`properties.jsonl` lists the properties, `MANIFEST.json` maps each to theorems.

## Layout

* `lean/Verif/Model/*.lean`  definitions only; each cites the file and lines it models.
* `lean/Verif/Spec/*.lean`   small independent specifications the theorems are stated with.
* `lean/Verif/Lemmas/*.lean` helper lemmas.
* `lean/Verif/Props/*.lean`  the property theorems, each with an `example` showing that
  its hypotheses are met by a concrete case, and `#print axioms`.

## Modelling conventions

* A call has one of several **distinct outcomes**: `ok value`, `thrown` (C++ exception),
  `ub reason` (undefined behaviour: null dereference, out-of-bounds access, use after free,
  uninitialised read, signed overflow where modelled), `abort` (failed `assert`) and, for
  functions given fuel, `diverge` (did not return within the fuel; theorems about divergence
  quantify over all fuels).
* Bytes are `UInt8`/`BitVec 8`; `int`, `long` and `ind` are modelled as bit vectors where
  wrap-around or the sign matters (ind, casts, ranges) and as `Int`/`Nat` elsewhere, which is
  said at the definition.
* IEEE floats are bit patterns; comparison is modelled exactly. Arithmetic and conversion are
  rounded as IEEE 754 has it in C164, C178-C179 and C181-C183, and opaque functions about which
  nothing is assumed elsewhere. `poly`, `roots`, `sum` and arithmetic
  broadcasting are modelled over an arbitrary (commutative) ring or arbitrary operation instead.
* Two levels: the *memory machine* (`Model/Mem*.lean`: heaps with reference counts,
  capacity, stale slots, references, views) and the *value level* (immutable trees/lists)
  for text processing, JSON, XML, INI, configuration, matrices.
* If a property is false of the code, the negation is proved with a concrete witness, the
  largest true part is kept under a name ending in `_partial`, and the disagreement is
  recorded in "Findings" below.

## Plan per property

| Id | Modelled | Proof |
|----|----------|-------|
| C01 | `ind` as 64 bit vector; complement; `reference` encoding | bit-vector algebra |
| C02 | `allocSize` loop, capacity part of `resize` | loop invariant (power of two, minimality); induction over resize histories |
| C03, C04 | `UTF8Len` loop over NUL terminated memory with explicit over-read outcome | induction; spec is an inductive grouping relation and a UTF-8 encoder |
| C05-C09 | `split(sep,max)`, `join` with `strstr` on C strings | strong induction on remaining length; empty separator: divergence for every fuel |
| C10, C11 | `split(max)` with `isspace` | induction; spec: list of maximal runs |
| C12, C13 | `Strip` (in place / out of place), `ToUpper`, `ToLower` | list lemmas; witness for whitespace-only |
| C14, C15 | `getline` (buffer doubling), `txtfile` read/write | induction on content |
| C16, C17 | `varbuf` operations as a transition system | refinement to (bytes, cursor) for all op lists; witness 0xFF |
| C18, C19 | `inifile::read` line fold | induction over lines; witness for second '=' |
| C20-C24 | JSON formatter and parser over byte lists | mutual structural induction for the round trip; measure argument for termination; witnesses for lost delimiters, truncated decimals |
| C25-C29, C75 | `operator!=`, `operator<`, `neq`, `lt` on values with explicit UB for nil | induction on values; order laws for scalars/strings; witnesses for maps, views, arrays, nil |
| C30-C32 | `binary`, `sort`, `index` | loop invariants; permutation/sortedness |
| C33-C36 | map operations | refinement to a finite map by induction over histories; witnesses for array keys |
| C37-C50 | memory machine: var, Heap, View | invariants over all programs (reference counts exact, no dangling pointers), refinement of array operations to lists; witnesses for references returned by pop/remove, self-append, empty shift, nested at() |
| C51-C55 | `setStrides`, `offset`, `operator()`, `subview`, `copyable`, view assignment | arithmetic on strides; induction on rank |
| C56-C58 | `Transpose::outOfPlace`, `inPlace`, shapes | cycle-leader invariant: every cycle of the index permutation is rotated exactly once |
| C59, C60 | `polyt`, companion matrix of `Roots` | induction over the loops; `Polynomial` evaluation; eigenvector argument both ways |
| C61-C66 | broadcast loops of functors with explicit out-of-bounds outcome | loop invariants; witnesses for mismatching shapes, aliasing, empty arrays |
| C67 | `irange`, `range` | induction; divergence witnesses at the type maximum |
| C68-C70 | `escape`, expat handlers, `writeElem` | structural induction over trees |
| C71, C72 | `Config`, `Option` | refinement to nested finite map; induction over argument vectors |
| C73, C74 | curl callback, sndfile size logic | list induction; arithmetic with the library contract as parameter |
| C76 | `strip(in, out)` on the value level | witness: result goes to freed memory for all but the empty string |
| C77 | `remove` on maps | witness and the largest true case |
| C78, C79 | JSON lexer: words, string literals | induction on the text |
| C80, C81 | moving views; `swap` loops | arithmetic on offsets; loop invariant, witness for overrun |
| C82-C85 | memory machine | one invariant over all programs: elements are not references, capacity covers size, element types, counts |
| C86-C91, C93 | memory machine: element and map assignment | refinement to lists and finite maps, frame conditions; witnesses |
| C92 | memory machine: assignment to variables | case analysis with frame conditions |
| C94, C95 | XML handlers over event sequences | induction over the events with a bracket count |
| C96 | `Option::parse` over `getopt` | induction over the valid items before the offending one |
| C97 | `UnaryFunctor` on the memory machine | loop invariant over the elements, frame condition for all other arrays |
| C98, C99 | `dot` of two matrices with the reference loops of BLAS, storage by rows and by columns explicit | loop invariant per column, then `Matrix.mul` of Mathlib; associativity and transposition follow; witnesses for three dimensions |
| C100 | `dot` of a vector with a vector or with every row | loop invariant; non-termination as a distinct outcome |
| C101 | `sort` over `UnaryFunctor::broadcast` with `std::sort` as any function meeting its contract | block-by-block invariant over the rows |
| C102, C103 | `asum`, `iamax` with the reference loops of BLAS and its allocation rules | loop invariants per row, then `broadcast` over the blocks |
| C104 | `concatenate` with `NaryFunctor`: type and shape checks, allocation, copying of the rows | invariant over the operands within a row, then over the rows |
| C105 | memory machine: `push` on nil, on a number, on an array | symbolic execution of the first two, induction over the rest |
| C106 | the GEDCOM reader function by function, over the bytes of the file; documents as trees of records | induction over lines within a record, then records, with the map of individuals as invariant |
| C107 | the same, on arbitrary bytes | invariant over every loop, a measure of what is left to read |
| C108, C109 | the same | C106 with another text in place of the trailer; the invariant of C107 over two reads |
| C110-C112 | memory machine: `presize`, `append` of raw data and of a var | added to the refinement of C39 and to the invariants of C37-C50; symbolic execution for numbers and nil; witnesses for strings, nil, self-append, elements |
| C113-C115 | `dft-kiss.cpp`: constructor, `alloc`, `scalar`, `vector`; the Kiss FFT functions are parameters with a contract | blocks as for C66; sums of roots of 1; for C115 the outcome of every check |
| C116-C119 | `path.cpp` over a file system given as a function from paths; maps as for C33 | the keys set so far as a set, induction over the depth of directories; C119 by cutting lists of characters |
| C124 | `strip` (`string.cpp` 230-257) on the memory machine; `isspace` is any function | induction over the depth as for C120; stripping is idempotent, so that an array may be reached more than once |
| C120-C123 | string functors (`string.cpp` 39-87, 259-345) on the memory machine; `toupper` and the regular expression are any functions | induction over the depth; for each array the number of times its characters are changed is counted, as arrays may be shared |
| C125, C126 | class `module` over libraries that are given as functions; a log of events | invariant over all programs; the specification speaks about the log only |
| C127 | `formatView` over the views of C51 and the values of C20 | the text is related to the elements by a relation; induction over rows and columns; then the reader of C20 |
| C128, C129 | `gnuplot::write` over the memory of C55, with `line` as a variable that is assigned to | induction over the list, with what `line` holds as invariant; C55 for the refutation |
| C130, C131 | class `Graph`; boost replaced by its documented behaviour | induction over the sequence of calls |
| C132, C133 | class `error`; the text of `backtrace_symbols` and the demangler are parameters, memory is a count of lost blocks | induction over the calls |
| C134 | `typeStr`, `atypeStr` on the memory machine | by the meaning of the variable, as for C22 |
| C135 | `push`, `pop`, `shift` where `Heap::resize` and `Heap::shift` act on the description of a view, which is memory not yet written in part | the description of a view in general, from C51 |
| C136 | `pow` on the memory of C61, with the variable it is assigned to | reduced to the loops of C61 and C63; exponents that are arrays by their dimensions |
| C137 | references to elements of arrays and views, with the virtual functions of `Heap` that `View` overrides and those it does not | every observation compared with that of the element, by cases on the type; the failures for views of vars as equations for all views |
| C138 | `index` and `sort` on these references | induction on the elements, reduced to C31 and C32 for numbers |
| C139 | `cast<T>()` with `istream >> n` on bytes | a numeral is specified by its parts; reading shown to find them for every text, and none if there are none |
| C140 | constructors with size or shape and `libube::view(shape, type)`, elements that are not set kept apart | the loops by induction; products of positive dimensions bounded by their product |
| C141 | constructors with lists, by `push` of Model/Cast | induction on the list, with C139 for casts to the own type |
| C142 | functors of math.cpp on the memory of C61; the functions and the conversion on assignment are parameters | induction over the loop, the output as in C61 |
| C143 | counts of arrays, arrays of vars and views under programs of ten statements, with the temporaries and references of each; numbers are left out, and shapes are a bit that says whether they agree | an invariant: the count is the number of references; cycles found by going back from what is left |
| C144 | the same; contents of arrays of numbers do not change here (see C66) | what the variables hold and the bodies of arrays are traced through each statement; an invariant for views of views |
| C145 | blocks of memory of the functors DFT and RegEx under programs of six statements, with the copies of the language | an invariant: every block has one owner; for copies induction over the functors destroyed |
| C146 | the documents of a program and the string in TYPE that their elements share | induction over programs; that the string is shared: on the machine of Model/Mem |
| C147 | the string functions again, with `isspace`, `toupper` and `tolower` as the C standard defines them, undefined for negative numbers but -1 | induction over the text, both where it is defined and where not |
| C148 | transpose-mkl.cpp with the functions of the MKL as parameters that transpose matrices without gaps (`TransposeMklSpec.Contract`) | equality with the model of transpose-adhoc.cpp, out of bounds too |
| C149 | dft-mkl.cpp with the library as parameters (`DftMklSpec.Contract`), types as `var::type()` has them | reduction to the code for Kiss FFT; the spectrum of real numbers is given by its first half, for odd sizes too; double precision by cases |
| C150 | the same and dft-kiss.cpp | equality of all outcomes where both libraries keep their contracts |
| C151 | `DFTImpl` and descriptors under programs of five statements, with the answers of the library as part of the program | an invariant: everything has one owner; for copies induction over the functors destroyed |
| C152 | class `MQwt`; Qt and Qwt replaced by their documented behaviour | induction over the sequence of calls |
| C153 | assignment of elements, `insert`, `remove`, `append`, `push`, … of arrays of cdouble in the memory machine; numbers are pairs of integers where parts matter | exact results by induction over the loops; false for cdouble, where operations that move elements keep real parts only |
| C154 | `push`, `unshift`, `insert`, `append` given an element of an array, in the memory machine | exact results by induction over the loops; false for `unshift`, which reads the element after moving, and for `insert` and `append`, which throw when they index the reference |
| C155 | `insert`, `remove`, `unshift`, `presize` on the views of C135 | the loops by induction; the array is split into what is before, in and behind the view; false, with exact results for all views |
| C156 | `push`, `unshift`, `append`, `x[i] =`, `resize` at 2^30 elements | the bound on memory is an invariant of all programs (part of `Nice`), from `allocSize` never exceeding 2^30; false, with the outcome for every operation and a reachable full array |
| C157 | `+`, `-`, `*`, `/`, `pow` and their assignments on numbers: variables, elements, values of maps, each on either side | frames of the memory machine; the element is found by the same reference on both sides, no other cell changes; nil throws |
| C158 | the same on nested data, arrays with a number and arrays with an array | induction on the data, with what the unary functions need made abstract (`Each`); the loops of the BLAS by induction; negations by witness |
| C159 | the same where the arrays do not fit: other types, other sizes, operations without a vector form | the steps up to the failing check are followed, with all counts given back; negations by witness |
| C160 | `insert` and `remove` with a position outside, on arrays of any type, numbers and nil | the size is read before anything is changed |
| C161 | the move constructor on the memory machine, given to a declaration, an assignment and `push` | the invariant of counts holds with the moved var as owner; then the theorems on assignment |
| C162 | `std::swap` of the C++ library, as three moves | the three statements in turn, what is shown is kept by them; negation by witness for elements behind references |
| C163 | `inifile::write` as the bytes printed, with the printer of JSON | first line of the bytes for every map, then one pass of the reading loop; negation for all files with an entry |
| C164 | `irange`, `range` for all pairs of number types but complex; IEEE addition and conversions defined from the values of the bit patterns | rounding proved to give a closest number; exact on multiples of a power of two; progress of at least half a step for termination; negations by theorem; strictly increasing because rounding is monotone and a step that does not increase once never does |
| C165 | `irange` and `range` in the memory model, with their parameters and result as variables | invariant of the loop on the part of the stack of the call; negation by witness for an element |
| C166 | `push` onto nil of nil, strings and arrays in the memory model | pushing onto nil is shown to be the same as onto an empty array of vars, then C39; negation for a number followed by anything else |
| C167 | `writeElem` with the tree afterwards | induction over the depth; the file is shown to be that of the model of C70; characterisation of the documents that change |
| C168 | `format`, `formatArray`, `key` in the memory model | induction over the depth; copies and temporary references raise one count each and commute, so that the state afterwards is the one before; the data of a var is unique, and on a cycle there is none |
| C169 | C168 and C20 joined: data in memory mean a value, and their text is that of `Json.format` | induction over the meaning of data; then the round trips of C20 and the refusals of C23 |
| C170 | C25, C28 and C31 in the memory model: parameters are copies, `Heap::at` makes vars, references are followed | `HoldsVal`: the value of a var in memory; the operators refine those of `Value` with the state exactly as before, by induction on the depth; endless comparisons by induction on the depth |
| C171 | C32 and C29 in the memory model: `index` and `binary` through temporary references and copies of keys | the loops refine those of `Value`, the search by induction on the steps granted; memory exactly as before |
| C172 | C31 in the memory model: `sort` builds a new array by searching and inserting references to the elements | the loop refines `Value.sort` by induction on the elements left, with the result kept apart from all other arrays; the arrays that are elements are shared; a number, also through a reference, gives an array of it alone |
| C173 | `operator ==`, `!=`, `<`, `index` and printing in the memory model, as calls on any reachable state | a frame of all variables and all arrays is kept by every step; printing takes references with `operator []`, which stay within the size because nothing has changed so far (the frame is begun anew at every array); counts keep what is held allocated |
| C174 | `top` as an expression of the memory model | exact state of `at(size() - 1)`, joined with C39 for sequences of operations; index -1 for empty arrays |
| C175 | `operator >`, `<=`, `>=` on the values of Model/Value | both sides reduced to the codes of keys, which are linearly ordered; witnesses for arrays, NaN and NUL; all values of different kinds |
| C176 | `operator -()` as the product with -1 in Model/Arith | joined with C63 (product with a number gives a new array), applied twice; exact outcomes for the types without the product; single integers by C177, single floating point numbers by C178 |
| C177 | `scalar()` of Add, Sub, Mul, Div for `char`, `int`, `long` on the left and any number on the right (Model/IntArith, conversion from Model/Cast) | conversion reduced to a remainder, operators to the integers, quotient characterised by its remainder; overflow and division by zero are undefined |
| C178 | `scalar()` of Add, Sub, Mul, Div for `float` and `double` (Model/FloatRange, Model/FloatArith), IEEE rounding to nearest even on exact numbers | rounding in units of any power of two, and of quotients, gives a number with few digits and none is closer; numbers of few digits are not changed by it; when the rounded quotient reaches infinity and what happens half way between two numbers follows from the last digit being even |
| C179 | `scalar()` of Add, Sub, Mul for `cfloat` and `cdouble`, conversion of the right operand (Model/Complex); division and the second try of the library at products without numbers are left out | the parts are sums of C178; whole parts are multiplied and added without rounding |
| C180 | `binOp` and `assignOp` of Model/Arith | the results of C61 and C63 compared element by element; counterexamples from C63 and C64 |
| C181 | the functions of C178 and `lt` of Model/FloatRange | rounding is monotone and unique by its specification `Rounded` alone; the difference of close numbers fits the format |
| C182 | `castF` and `castI` of Model/FloatRange | rounding of C178; monotone by C181 after both are brought to one denominator; witnesses for what is lost |
| C183 | `sum` of Model/Rows at elements with the addition of Model/FloatRange (Model/FloatSum) | the loop is a left fold, by induction on the row; error, order and exactness by induction on the running sum, with the relative error of one rounding |

## Trusted base

* The Lean 4.33.0 kernel.  No own axioms, no `sorry`, no `native_decide`, no `bv_decide`.
* Axioms: at most `propext`, `Classical.choice` and `Quot.sound`.  `AXIOMS.md` lists them per
  theorem (made by `tools/gen_axioms.py`); every property file ends in `#print axioms`.
* That the model definitions say what the C++ sources say.  Each definition cites the lines it
  stands for.  `tools/coverage.py` lists the lines cited per file of `/repo/lube`.
* The C++17 rules as read here: evaluation order of `=` (right operand first), argument
  passing, lifetime of temporaries, guaranteed elision of copies.  `assert` is taken to be
  compiled in; a failing one is the outcome `abort`.
* Memory allocation succeeds.  Files can be opened and written unless said otherwise.

### What stands for external code

| External | In the model |
|----------|--------------|
| Parsing and printing of floating numbers, rounding between types, `std::abs` of complex numbers | `opaque` functions: `readDoubleText`, `readFloat`, `roundDouble`, `roundFloat`, `showFloat`, `showDouble`, `showCFloat`, `showCDouble`, `showPointer`, `cabsf`; nothing is assumed about them |
| Floating arithmetic | IEEE 754 rounding to nearest even, written out, for single numbers, ranges and sums (`FloatRange`, `FloatArith`, `Complex`, `FloatSum`): trusted to be what compiler and processor do, without wider intermediate results; an arbitrary ring or operation elsewhere (`Rows`, `Roots`, `Arith`) |
| BLAS | sequential loops in ascending order |
| LAPACK `geev` | a parameter: any function; `roots_*` speak about the matrix it is given |
| Conversions, comparisons and number syntax on the memory machine | class `Env` (`conv`, `nul`, `parse`, `less`, `differ`); a theorem that needs more (as `ConvSame`) has it as a hypothesis |
| `isspace`, `toupper`, `tolower`, `strstr`, `strlen` | defined in `Model/CString.lean`, C locale |
| expat | event sequences; the round trip C70 uses a reference tokeniser in `Spec/Xml.lean` |
| `getopt` | after its manual page, with and without permutation |
| libcurl | calls the write function once per chunk; stops when it returns another number |
| libsndfile | a frame is one sample per channel; counts are in frames |
| `std::filesystem` | a function from paths to what is there; POSIX paths; `filesystem_error` is the exception `ioFailure` |
| Kiss FFT | a parameter; `DftSpec.Contract` (the sums of its manual, null pointer for real transforms of odd size) is a hypothesis of C113 and C114, met by `Dft.exact` |
| `dlopen`, `dlsym`, `dlclose`, the libraries | a table from names to what is found; a library is open as long as it was opened more often than closed; code of a library that is not open is undefined to call |
| C library functions behind elementwise functors | parameter `Fn.f` |

## What is modelled

| Module (Model/) | Source | Left out |
|-----------------|--------|----------|
| Ind | ind.h | |
| Kind, Value, Order part of Value | var.cpp 502-582, heap.cpp comparisons | views of more than the kinds given there |
| CString, StringFns | string.cpp 72-257 | - |
| MemString | string.cpp 39-87, 230-345, on the memory machine | the regular expression library; views |
| MemArith | math.cpp 189-211, 328-469, 476-634, 752-783, func.cpp 134-166, 188-299, var.h 105-112, var.cpp 165-175, on the memory machine: operands of dimension 1 | views and matrices (for numbers they are in Arith); the BLAS is a loop over the elements |
| Module | module.cpp, module.h, graph.h 31-33 | names of libraries, messages of errors; `std::bad_alloc` |
| Utf8 | utf8.cpp | |
| GetLine | txtfile.cpp, string.cpp getline | opening of files |
| VarBuf | stream.cpp | |
| Backtrace | var.cpp 1504-1602 | the C library's `backtrace_symbols` and `__cxa_demangle` |
| MemName | var.cpp 983-1028 | - |
| ViewOps | var.cpp 1066-1178, 1227-1234 on views of numbers, with heap.cpp 225-271, 472-489, 535-546 | views of cdouble, whose elements lose their imaginary parts when moved (C153), and of vars; `unshift` of anything but an `int` |
| ViewElem | var.cpp 34-60, 508-575, 600-643, 711-721, 808-819, 1181-1214, 1241-1323, 1329-1348, heap.cpp 108-169, 448-465, heap.h 204-240, view.cpp 153-167 for references to elements | writing through references (C55); `Set` on the view a copy of a reference is made, but for its result |
| Ctor | var.cpp 420-426, 443-474, 915-946 for numbers, 1383-1408 | `var(shape, x)` for arrays other than cdouble; an array that is a view given to `view` for the type |
| Gnuplot, Graph | gnuplot.cpp, graph.cpp | the pipe and its errors, boost, module factory functions |
| Ini, Json, Xml | inifile.cpp, json.cpp, xmlfile.cpp | opening of files, module factory functions |
| FloatRange | var.cpp 857-898 with math.cpp 330-350, 409-429 and var.cpp 546-565, 646-697 for `float` and `double`; IEEE 754 rounding to nearest is written out, not taken from /repo | complex bounds, the sign of zero, other rounding modes |
| FloatArith, Complex | math.cpp 330-356, 409-435, 548-575, 754-774 for single numbers | complex division, the sign of zero, other rounding modes |
| FloatSum | math.cpp 869-936 for `float`, `double` and `cfloat` with rounding; the loops are those of Rows | `cdouble` (C66: only the first element is taken) |
| Derived, Negate, JsonView | var.h 99-104, 113; json.cpp `formatView` | - |
| MemIrange | var.cpp 857-866, 883-892 as calls in the memory model | bounds that are arrays; order of evaluation of arguments and destruction of parameters |
| XmlKeep | xmlfile.cpp 241-286 with the tree afterwards | an array in two places of a tree is followed twice; the stream never fails |
| MemPrint | json.cpp 237-366, var.cpp 844-849, heap.cpp 438-444 in the memory model | views; text of numbers and addresses (parameter); size asked for once in each loop |
| MemCompare | var.cpp 508-575, 1194-1214, 1329-1348, heap.cpp 392-465, var.h 99-104 in the memory model | views; values of numbers (parameter); sizes asked for once in each loop; arrays of cdouble have no value here, their comparison is treated apart |
| MemSort | var.cpp 1181-1191 in the memory model | views; the size asked for once |
| Cast | var.cpp 646-700 | value of floating conversions (opaque) |
| MapOps | var.cpp 735-753, 829-841, 1104-1154, 1194 on values | sharing (that is MemProg) |
| AllocSize | heap.cpp 189-271 | |
| Dft | dft-kiss.cpp, dft.h, func.cpp 32-57, 96-131 | rounding, the library itself (its contract is a hypothesis, met by `Dft.exact`), negative sizes |
| Path | path.cpp 50-108 | the constructor; changes of the file system during a call |
| Mem, MemLit, MemProg | var.cpp 237-480, 584-976, 1035-1323, heap.cpp; statements include calls of the functors of MemUnary and MemString, arithmetic, comparing, `index`, `sort` and printing, so that reachable states are those of programs that use them | views on the heap, ranges |
| MemUnary | func.cpp 20-110, math.cpp 76-186 | views (see Unary), functors with `mDim` > 0 |
| Life | var.cpp 276-338, 711-721, 1241-1323, view.cpp 20-60, 153-167, heap.cpp 108-160, 281-309, heap.h 121-144, 204-223 | values of numbers, elements of arrays of cdouble, maps, moves, the other functions of var (see Mem) |
| Owning | dft-kiss.cpp 18-34, 47-98, string.cpp 90-100, dft.h, regex.h 21-29, as far as memory goes | what the functors compute (see Dft, StringFns), memory running out |
| XmlType | xmlfile.cpp 72-77, 170-206, the string in TYPE of all elements | other changes of documents (those are to arrays of the one document) |
| Ctype | string.cpp 177-206, 230-249, 319-345 under the C standard | locales other than "C" |
| TransposeMkl | transpose-mkl.cpp | the library itself (its contract is a hypothesis, met by `TransposeMkl.exact`), rounding of the factor 1 |
| DftMkl | dft-mkl.cpp | rounding, the library itself (its contract is a hypothesis, met by `DftMkl.exact`), errors when computing, negative sizes, that the new array in double precision shares elements with the functor |
| OwningMkl | dft-mkl.cpp 19-108 as to memory | what is computed (DftMkl), memory running out |
| Qwt | qwt.cpp | Qt and Qwt, colours and grid, `exec`, the factory function |
| Unary | func.cpp 20-48, 96-111, math.cpp 76-186 on the memory of Arith | functors with `mDim` > 0 (see Rows, Dft) |
| View, Transpose | view.cpp, var.cpp 1355-1460, transpose-adhoc.cpp | sharing of the data between views is that of one list |
| Arith, Pow, Rows | func.cpp 134-299, math.cpp 76-82, 189-634, 752-783, 866-935 | rounding; BLAS order |
| Dot | math.cpp 637-749, func.cpp 146-176, 257-299, clapack.cpp 112-122, 208-232 | rounding; BLAS itself (reference loops) |
| Reduce | math.cpp 786-866, 939-987, 1191-1302, func.cpp 20-131, 333-410, clapack.cpp 140-174 | rounding; `std::sort` and BLAS are replaced by their contracts |
| Ged | gedfile.cpp | messages on standard output; failure to open the file; that the result shares memory with the reader |
| Roots | math.cpp 1050-1188, clapack.cpp geev | LAPACK itself |
| Range | var.cpp 857-898, math.cpp range | floating steps |
| Config, Option | config.cpp | module loading, the usage text |
| Curl | curl.cpp 64-121 | libcurl set-up, XML and JSON post processing |
| Sndfile | sndfile.cpp | attributes |

Not modelled at all: throw.cpp (a test program), the class `timer`, boost.

## Findings

Where the code does not do what a user would expect.  Those with a theorem name are proved of the model; the
theorems are listed in `MANIFEST.json` under the property.

### Memory, arrays, references

* `x[i] = x[i]` on an array of vars throws "var::dereference(): Unknown type", leaves an element of no type and
  leaks (C86); so do `m[k] = m[k]` (C91) and `r = x[i]` for a reference `r` to `x[i]` (C93).
* `x.push(x.pop())` on an array of vars throws and loses the element (C43).  `x.unshift(x[1])` inserts the old `x[0]`
  (C39).
* A reference that is the only owner of its array: `resize` or `push` through it uses freed memory (C85).
* `unshift` into an array that has shrunk leaks what the stale slot held (C46).
* `pop` returns a reference: of a string it reads NUL (C40); assigning to it overwrites the terminator (C50); a later
  `push` changes it.
* Inserting an array into itself gives wrong contents, reads out of bounds or reads uninitialised memory (C42).
* Pushing a string that is no number on a numeric array throws after the array has grown (C43).
* `pop` of an empty array fails an assertion; `shift` of an empty array is undefined (C44).
* `remove` on numbers, and on elements of arrays of vars that are no arrays, returns a reference that shows the next
  element (C41).  `remove` of a complex array from an array of vars throws.
* `copy()` throws for complex arrays (C48) and is shallow (C47).
* `resize(2^30 + 1)` sets the size but gets no memory (C83).
* Shrinking does not destroy elements; growing again shows them (C87).
* `at(i)` of an array checks nothing: -1 gives the array itself, smaller numbers misread another member (C88).
* `remove` on a map shifts values but not keys (C77).
* `m["a"].at("b")` looks up "b" in the inner map but refers to the outer one (C38).
* A reference into a map shows another entry once a smaller key is added (C37).
* A string used as a key is shared: changing it changes the key (C90).  `m[1] = m[2]` with 1 new throws; `m[1] = m[3]`
  copies the value of 2 (C91).

### Comparison, sorting, maps

* Comparing nil with nil or an array dereferences a null pointer (C25, C75).
* `!=` on maps ignores keys (C26); on views it compares offset and shape (C27); on arrays it looks at the elements of
  the left one only.
* An element of an array of complex doubles and a complex double are of different types (7 and "array"), so `sort` keeps the
  order of such an array and `index` never finds anything in it (C31, C32).
* NaN is equal to everything for lookups (C28, C31, C33); strings as keys end at NUL (C33); arrays as keys are not
  ordered (C28, C36).

### Text

* `split` with an empty separator never returns (C08); `split(1)` gives two pieces (C11).
* `strip` of white space only reads before the string (C12); `strip` into another variable writes to freed memory
  (C76).
* String functions of a number that is no character never return; a `char` in an array becomes an empty string in place; `toupper(x)` of a
  map loses the keys and of nested arrays throws; `replace` of an array that occurs twice replaces twice (C120-C122).
  `strip` of a string of space only, nested or not, is undefined; on a reference that is the last holder it reads freed memory; `strip(x, y)` with a `y` that
  shares its array with `z` changes `z` (C124, C76).
  A `module` object that is copied deletes its instances twice; a library without factory function is never closed (C125, C126).
  A search whose result goes to the variable that is searched reads freed memory (C123).
* The last line of a text file without newline gains byte 0xFF (C14); writing puts quotes around lines (C15).
* Byte 0xFF reads as the end of a stream; seeking to the end fails (C16, C17).
* INI values end at a second separator; blank lines and a missing final newline are misread (C18, C19).
* JSON: dense arrays and empty arrays do not read back, quotes are not escaped, numbers with fractions are cut, a number
  directly before a bracket or brace swallows it, escapes are rejected (C20 to C24, C79);
  a string comes back from its text only if it holds no NUL, quotation mark or backslash; an array
  of vars that begins with an integer never comes back if it holds anything else, and strings of
  digits in it silently become numbers (`mixed_array_lost`, `numeral_string_absorbed`).
* XML: newlines in text are lost, words at line ends are joined; comments, processing instructions, document types and
  blanks outside the root throw; numbers as data are written as NUL; an empty file reads as nil; text with entities
  arrives in pieces; the file is overwritten before the top level is checked (C68, C70, C95).

### Configuration, options, downloads, sound, directories

* A flag given twice throws; an unknown option ends the program with status 0 (C72, C96).
* Looking up an unknown section inserts it; a setting without a section is dropped; `config(var)` returns a reference
  into the global store (C71).  Looking up nil in a section is undefined.
* Sound files: more than one channel throws on reading, which leaves the file open, and reads beyond the array on
  writing; an empty file is the number 0; types other than float are reinterpreted (C74).

* GEDCOM: a family before any individual throws, before its own individuals it loses the links silently (C106).  A tag that
  is not known, in a record or a line, ends the reading without notice, and with a cross reference after it (`1 SOUR @S1@`)
  accesses an element of an empty array (C107, C108).  A MARR line or a record with no lines below swallows what follows
  (C106).  A single child is a number, not an array.  Empty or truncated files are undefined (C107).  A reader used again
  returns the records of both files (C109).
* `presize(n)` on a string longer than `n` replaces character `n` by NUL; on nil it makes an empty array, on a number an
  array of one (C110).
* `append("text")` on nil writes characters over a var: `var v; v.append("a");` is undefined (C111).
* `x.append(y[i])` and `x.insert(y[i], p)` throw if `y` is an array of numbers, after `x` has grown; `v.append(var("a"))` on
  nil makes an array of characters as vars (C112).
* `tree` follows symbolic links: one that leads back makes it run until the system refuses and an exception ends the call; an empty
  directory is nil, as a file is (C118).

### Numbers and matrices

* `DFT(m)` of real numbers with `m` odd is made without complaint and then calls the library with a null pointer; rows shorter
  than `m` are read past their end; of longer ones the rest is ignored (C113, C115).
* Negative offsets move a view out of its array (C51, C80); views of integers throw; views of one element are
  undefined (C55).
* A printed view of three or more dimensions is read back as one number, its first dimension; a printed view of one dimension is
  rejected by the reader; of a view of an array of vars strings and other arrays are printed as null, numbers are undefined; a view of
  cdouble throws (C127).
* `gnuplot::write` overwrites the first of two matrices of the same type and shape by the second; for integers it throws (C128).  A single string is
  sent as empty lines (C129).
* An `error` thrown below a function whose name is not mangled, as `main`, loses a block of memory; a call without a name ends the list of calls; a
  call outside of all files makes it write through a null pointer (C132, C133).
* `atypeStr` of nil follows a null pointer (C134).
* On a view `push` overwrites the element behind it in the array, or writes outside of the array; `pop` leaves the size or makes it an exception;
  `shift` returns the offset (C135).
* An element of a view of vars is said to be defined though it be nil, `[]` of it throws, comparing it with a var of its type and size follows a null pointer, and
  so do searching such a view for something of the type and size of an element and sorting it.  A copy of an element which is an array of vars of the
  size of the view throws or never ends (C137, C138).
* `cast<int>()` of a long that does not fit changes it silently, of a floating point number that does not fit it is undefined, as are casts of arrays;
  "7" is cast to the char 55, but 7 to the char 7 (C139).
* `var(0, x)` and `var({x})` are `x`, not arrays; `view(shape, x)` sets the first element only, and an array given for `x` is itself resized (C140).
  `var({1, 2.0})` throws, `var({1, 2, 3.5})` is {1, 2, 3} (C141).
* `exp`, `abs` etc. of an array of cdouble give the value for the first element only, those of integers throw, and an output that begins inside the input is
  wrong (C142).
* `view(shape)` with a shape that does not fit loses the memory for the shape, `copy()` of an array or view of complex numbers that of the copy, and an array
  with a view of it among its elements is never freed (C143).  Assigning to a view of the shape of what is assigned copies the elements into what is viewed (C144).
* DFT, IDFT, Search, Match and Replace functors have no copy constructor of their own: the memory of every one that is copied or assigned is freed twice.  A DFT that
  throws in its constructor, as for double, loses its memory (C145).
* The string "text" in TYPE is one array in memory for all elements of all XML documents of a program: after `t = doc[TYPE]; t[0] = 'T';` every document, also those
  read later, has the other word, and none can be written any more (C146).
* By the C standard `toupper`, `tolower`, `split` at white space and `strip` are undefined for texts beyond ASCII where `char` is signed, as on x86; in the GNU library
  they are defined, and StringFns has it so (C147).
* Built with the MKL, transforms in double precision can be made but every call throws: `inverseType` is a `cdouble`, which is an array, and `type()`
  of it never is the type of the elements of an array.  For the same reason the constructor refuses complex numbers of double precision.  Single
  precision works, and for odd sizes too, which Kiss FFT does not do (C149).
* The destructor of a transform with the MKL throws if the descriptor cannot be freed, which ends the program, and a constructor in
  which the library fails loses both the memory and the descriptor (C151).
* `MQwt::curve` and `MQwt::axes` before `plot` use a pointer that has not been set, and `curve` reads numbers of another type as if
  they were of type double (C152).
* In arrays of cdouble, `x[i] = x[j]`, `insert`, `remove` and `append` of a var drop the imaginary parts of all elements they copy or move:
  the cast of a reference to its own type goes by way of the real part (C153).
* `x.insert(y[j], p)` and `x.append(y[j])` throw for all arrays of numbers, `y` being `x` or not, and leave `x` one element longer;
  `x.unshift(x[j])` inserts element `j - 1` for all types and sizes (C154).
* On a view, `insert` drops the last element, or at the end writes behind the view; `remove` leaves the size; `unshift` sets the offset;
  `presize` makes the number of dimensions half the size (C155).
- Arrays have memory for at most 2^30 elements: beyond, `allocSize` (heap.cpp:189) overflows to a negative number and `Heap::resize`
  (heap.cpp:248) takes the memory there is to be enough.  `push`, `unshift`, `append` and `x[i] = v` then write past the end; `resize` of an
  array of numbers succeeds without memory for the elements; only a new array fails an assertion (C156).
- `x + 1` on an array of vars writes the numbers over the pointers of nil vars (C158); `x *= 2` throws for integers, arrays of vars
  and maps, where `+=`, `-=` and `/=` work at any depth; `x += x[0]` adds the changed first element to the others; `x /= y` with an
  empty `y` throws and makes `y` longer; `m[k] += 1` for a new key throws and leaves the key in the map (C157).
- `x + y` and `x - y` for two arrays abort the program (`assert(iVar1.is(oVar))`), `x * y` works; `x += y` does not compare the sizes:
  a longer `y` makes it read and write past the end of `x`, and an empty `x` is a division by zero (C159).
* `std::swap(r, q)` of two references to elements exchanges nothing in the array: `r` and `q` become variables with the values (C162);
  `r = std::move(r)` also makes a reference a value (C161).
* `inifile::write` prints each section as JSON and drops its name: no file it writes for a map of sections can be read, `inifile::read` throws at the first line (C163);
* `irange(0.0, 1.0, 0.1)` has eleven elements, `irange(9007199254740992.0, hi)` and `range(x, NaN)` never end, `irange(0, 1.0, 0.1)` never ends and `irange(0.0, 1)` is nil (C164);
* `irange(a[0], 5)` counts `a[0]` up to 5, as the parameter is a reference to the element (C165);
* A `cdouble` pushed onto nil makes an array of vars, not of cdouble (C105); after a number, values of other types cannot be pushed,
  while after a string, an array or nil anything can (C166).
* Writing an XML document turns a number that is the data of an element into an array of one (C167); it is written as a NUL byte (C68).
  So is every character of a string and every number of an array that is the data of an element (C70).
* Printing an array that contains itself never ends; two or more complex numbers of double precision print as addresses (C168).
* Comparing an array that contains itself with itself never ends, nor does comparing equally many complex numbers of double precision; nil compared with nil or
  an empty array follows a null pointer (C170), and so does looking for nil in an array that begins with it (C171)
  and sorting an array that begins with two of it (C172).  The arrays that are elements of a sorted array are those of the original, not copies (C172).
  The top of an empty array is the array itself (C174): `reference(-1)` gives type 0.
* `>`, `<=` and `>=` do not agree with each other outside keys (C175): of {1,5} and {2,3} neither is `<=` the other
  and each is `>` the other; {1} and {1,2}, NaN and 1, and two strings that differ after a NUL are both `<=` and `>=`
  but not `==`.
* `-x` throws for arrays of int, long and `cfloat` (C176), as their product with a number does; for `cdouble` all but
  the first element of the result are what the memory held before.
* The right operand is converted to the type of the left one (C177): 1 + 2^32 is 1 with an `int` on the left, 2 * 0.5 is 0, and dividing
  an `int` by 2^32 divides by zero.  Results that do not fit are undefined, for `char` off by 256.
  With a `float` on the left a `double` is rounded first: 1 + 2^-30 is 1, while 2^-30 + 1 is exact (C178).
* `swap` overruns for more than one dimension (C81).  A longer right operand overruns, an empty one is undefined (C62);
  `+` and `-` of arrays abort on aliasing (C63), and `x op= x[i]` changes the operand on the way (C64).
* An array of cdouble is taken for a number: `a op= b` changes the first element only, of `a op b` all others are unset, assignment to a view
  assigns the first, `sum` returns the first, `swap`, `dot` and `iamax` abort, `asum` is undefined (C55, C61, C63, C66, C81, C98, C100, C102, C103);
  `x.pow(y)` makes `x` an array of one element.  `pow` throws for integers and for all arrays as exponents (C136).
* `poly` of cdouble overruns; `poly` of nothing divides by zero (C59); `roots` of degree 1 throws (C60); `sum` of an
  empty array reads past its end (C66).  Ranges up to the largest value of a type never end (C67).
  `dot` of an array of three dimensions with a matrix takes the first dimension for the number of rows and reads and writes beyond the arrays;
  of complex matrices it throws; of anything with a vector of one element it never returns; of vectors of different length it reads
  past the end or ignores the rest (C98, C100).
* `sort(x)` always throws, only `sort(x, x)` works; `asum` throws for integers and cfloat, `iamax` for integers,
  and of a number it aborts; for complex numbers it compares |re| + |im|.  All of them divide by zero for an empty array
  (C101-C103).
* `concatenate` throws for integers; a first operand without elements makes it write out of bounds; operands with more dimensions than the first
  lose rows, and with fewer dimensions leave parts of the result unset, without an exception (C104).
* Elementwise functions: an array that occurs twice is changed twice in place; of a cdouble array only the first element
  is used; `f(x)` throws for nested arrays; an element that is nil throws (C65, C97).
* C179: the right operand is converted by its real part, so `1.0f + i` is 1 while `i + 1.0f` is 1 + i, and `cdouble + cfloat` drops
  the imaginary part (lube/var.cpp:691-693); `cfloat + cdouble` reads a pointer as a number (`complex_order_matters`).
* C176: the negative of infinity + i is minus infinity with an imaginary part that is not a number, as infinity * 0 is not
  (`negate_complex_infinite`).
* C180: `x + y` and `x - y` of arrays stop at an assertion where `x += y` and `x -= y` work, and `x -= x[k]` is not `x - x[k]`
  (`assign_sum_differs`, `assign_element_differs`).
* C182: the largest `long` becomes the double 2^63 and the largest `int` the float 2^31, whose conversion back is undefined
  (`int_float_lost`).
