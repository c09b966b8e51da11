# A formal model of waterbear in Lean 4

waterbear is an assembler, disassembler and resource converter for the
Dreamcast VMU (Sanyo LC86K).  This directory contains a Lean 4 model of its
logic (`lean/Verif/Model`), small specifications written independently of that
model (`lean/Verif/Spec`), helper lemmas (`lean/Verif/Lemmas`) and the property
theorems (`lean/Verif/Props`).  `properties.jsonl` lists the properties in
English, `MANIFEST.json` maps each to its theorems, `seeded/LOG.jsonl` records
the attempts to break the model and see the theorems fail.

## 1. Trusted base

* Lean 4.33.0's kernel.  No axioms of our own, no `sorry`, no `native_decide`,
  no `bv_decide`.  Theorems depend at most on `propext`, `Classical.choice` and
  `Quot.sound` (section 6 gives the list as printed by `#print axioms`).
* The faithfulness of the model: every definition in `Verif/Model` cites the
  file and lines it models; the code was read as text, not run.
  As a check of the reading, the model was run on the project's own tests: all
  its unit tests hold of the model (`Verif/Tests/Repo.lean`), and the model
  assembles the programs of tests/end_to_end.rs to files with the SHA-512 that is
  expected there (`tools/end_to_end.sh`; the two images are decoded by a script).
* The specifications in `Verif/Spec`, which are to be read against the English
  property.
* Rust semantics as read: `i32` arithmetic panics on overflow in debug builds
  and wraps in release builds (both are modelled through a `Mode` parameter);
  `/` truncates; `>>` on `i32` is arithmetic; `as` casts truncate; `HashMap` is
  a finite map; `Vec` indexing out of bounds panics.

## 2. Conventions of the model

* `Res α` = `ok a | err e | panic | loop`.  `?` is monadic bind.  A Rust panic
  (index out of bounds, `unwrap` on `None`, arithmetic overflow in a checked
  build, explicit `panic!`) is the value `panic`, never hidden by a default.
  `loop` stands for a computation that does not end, or that did not end within
  the fuel given (see below).
* `Mode.checked | Mode.wrapping`: `i32`/`usize` arithmetic panics on overflow
  (debug build) or wraps (release build).  Every arithmetic step whose overflow
  can be observed goes through the mode; theorems hold for both modes unless
  they name one.
* `usize`/`i32` values are `Nat`/`Int`; `as` casts are `wrap32`, `asI32`,
  `toU32`, `toUsize`.
* Text is `List Char` (`"abc".toList` in statements); bytes of a text are
  `utf8`, defined by Lean's `String.utf8EncodeChar`.  Identifiers are ASCII by
  the lexer's regexes, so Rust's `to_lowercase` on them is ASCII lower-casing.
* Source spans are dropped from expressions, statements and most errors (they
  are only used for messages); tokens keep their location because line grouping
  depends on it, and lexical errors keep theirs (C62, C63 are about them).  A
  second model, `Model/Located/`, has all spans, function by function; forgetting
  them gives the first model (`erase_…` lemmas, C71_same).
* Hash maps are association lists with `insert`/`lookup`.  Where the code
  iterates over a hash map the order is a parameter `order` of the model, and
  theorems hold for every order (or say what they need of it).
* `uuid::Uuid::new_v4` is a parameter: a stream of names.  Where a property
  needs uniqueness the hypothesis is that the stream is injective; where it
  needs the shape, that the names are lower-case.
* The `unicode-segmentation` crate is a parameter `seg : Seg` (how many
  characters the first grapheme of a text has).  `Plain seg t` says that the
  graphemes of the text `t` are single characters or CR LF: it has no combining
  characters.  `AsciiSeg seg` says that this is so for ASCII texts.  Theorems on
  source texts hold for every `seg` and every text that is plain for it; those on
  C headers and listings, which are ASCII, for every `seg` with `AsciiSeg seg`;
  those on printed programs and icons (C65, C69) for texts of either kind.  C headers must be ASCII because block comments with other
  characters can crash the program (C48_comment_crash).  `AllPlain` puts the two
  together for a tree of includes.
* The file system is a parameter `FS` (the bytes of each readable file, and
  which paths are regular files); image decoding is a parameter `load`.
* Loops and recursions that may diverge take fuel and return `loop` when it
  runs out.  Theorems quantify over the fuel, or show that from some amount on
  the result no longer depends on it.  The search in `.cnop` has the fixed fuel
  2^32, which is exact (C27_steps).
* Mathlib is used only for the arithmetic of that search (`Lemmas/CnopLoop.lean`:
  Bézout's identity and divisors of powers of two).

## 3. What is modelled

| Source | Model |
|---|---|
| waterbear-instruction-derive/src/lib.rs (bit-pattern compiler: tokenizer, ranges, masks, opcode sets, encoder, extractor) | `Model/Derive.lean` |
| src/instruction.rs (instruction set, eval, size, encode, decode, Display) | `Model/Instr.lean`, `Model/Print.lean` |
| src/expression.rs (Expr, eval, Display, macro substitution) | `Model/Expr.lean`, `Model/Print.lean` |
| src/env.rs, src/asm.rs assemble, compute_labels, compute_names, generate_bytes | `Model/Asm.lean` |
| src/ast.rs (statements, directives, sizes, Display) | `Model/Ast.lean`, `Model/Print.lean` |
| src/asm.rs expand_macros | `Model/Macro.lean` |
| src/input.rs, src/lexer.rs, src/location.rs | `Model/Lexer.lean` |
| src/parser.rs | `Model/Parser.lean`, `Model/MakeInstr.lean` |
| src/cheader.rs | `Model/CHeader.lean` |
| src/files.rs | `Model/Files.lean` |
| src/asm.rs read_statements, replace_includes, replace_byte_includes, assemble_file, expand_file | `Model/Include.lean` |
| the same functions of src/expression.rs, src/instruction.rs, src/parser.rs, src/cheader.rs, src/asm.rs with spans and the places of errors | `Model/Located/*.lean` |
| src/disasm.rs | `Model/Disasm.lean` |
| src/img.rs | `Model/Img.lean` |
| src/lib.rs commands assemble, disassemble, expand, image, icon, vmi (files read and written, output, exit) | `Model/Command.lean` |
| src/lib.rs generate_vmi, line_for_pos, caret | `Model/Vmi.lean`, `Model/Report.lean` |
| src/img.rs load_image, load_gif, load_png, to_frame, to_image | `Model/LoadImage.lean` (over decoders) |
| src/lib.rs image as JSON, with serde's derived implementations | `Model/Json.lean` |
| src/lib.rs print_error (places and captions), highlight_line_indented | `Model/Located/Report.lean` |
| src/parser.rs wrong_args and src/lib.rs print_error (list of allowed forms) | `Model/WrongArgs.lean` |
| src/lib.rs print_error (all texts), assemble_cmd and the commands assemble and expand (standard error) | `Model/Located/Messages.lean` |
| src/files.rs SourceFiles::path (warnings), with the functions of src/asm.rs that call it | `Model/Located/Warnings.lean` |
| libwaterbear/src/lib.rs (C interface: reading the arguments from memory) | `Model/CInterface.lean` |
| src/lib.rs commands disassemble, icon and vmi, src/disasm.rs build_instruction_graph (standard error) | `Model/Stderr.lean` |

The specifications (`Spec/`) are: `InstrSet` (the instruction table of
docs/instructions.md, bit by bit), `Cpu` (how the CPU computes branch and jump
targets), `Expressions` (values, overflow), `Assembly` (layout, scopes, meaning
of names, emitted bytes, overlay of writes), `Macros` (instantiation,
capture-avoidance), `Lexing` (token spelling, gaps, lines), `Grammar` (the
grammar as inductive relations), `Printing`, `Reread` (what can be printed and
read back), `CHeader`, `Include`, `Files`, `Disasm` (control flow, listings),
`Img`, `Data`, `Vmi`, `Report`, `Reassembly`, `Respelling`, `Sources` (include
trees), `Command` (what a command is to write and print, which disks differ in one
file only), `ImageFile`, `Places` (what each error points at), `Highlight` (how a
place is shown), `WrongArgs`, `Json`, `LoadImage`, `Reasons` (what is wrong with a
program), `Syntax` (what is wrong with tokens that are no program), `Expansion`
(what is wrong with macro calls), `DataIncludes` (the bytes of includes of data),
`SourceErrors` (what is wrong with source files), `SourceTokens` (their tokens),
`AssembledFiles` (the program that they are), `FileErrors` (what is wrong with them),
`Messages` (what is said about each error), `Warnings` (which files are warned about),
`Stderr` (what `disassemble`, `icon` and `vmi` say).

Not modelled: command-line parsing (the model starts from the parsed arguments),
the messages of panics (for all else on standard error see C83, C84 and C85; there the
word in front of a missing name, the reasons given by the operating system and the
decoder, and the quotation of strings are parameters), failures of standard
output, the `version` command, colours, image file
decoding (the `image` crate: parameters `load` and, in C75, `Decoders`), the source
of serde_json (its two formatters are modelled as documented), the unused types of src/metadata.rs, real file-system
access (parameter `FS`, constant while a program is read, except in C61, where it may
change between loads; which files can be created and how many bytes each write
takes are a parameter `OS` in C70), the system clock (a parameter), Unicode grapheme segmentation
(parameter `seg`) and the regex engine (the regexes are transcribed as
functions).  Floating point in src/img.rs is modelled as IEEE 754 binary64 with
round-to-nearest-even on the operations used (`f64` in `Model/Img.lean`).
Sizes of Rust collections are taken to be unbounded (no allocation failure).

## 4. Plan per property

Instruction encoding (C01–C09).  The bit-pattern compiler is modelled
generically (patterns as data: masks, shifts, opcode sets as the macro computes
them), and the instruction table is the list of patterns copied from
instruction.rs.  C01, C02: generic bit lemmas over patterns, plus a decidable
whole-table check of well-formedness.  C03: table fact lifted to all operands.
C04: for all 256 first bytes.  C05: an independent table written from
docs/instructions.md, compared bit by bit for all operand values.  C06–C09:
arithmetic on the evaluated operands, stated with the CPU's rules as the spec.

Expressions (C10–C15).  C10: denotational semantics over `Int` with an explicit
"all intermediate results fit" predicate.  C11, C12: induction.  C13, C14: an
inductive precedence grammar relation `Parses`; soundness and completeness of
the Pratt parser against it.  C15: printing to text and lexing + parsing it.

Assembly (C16–C30).  One abstract semantics: a list of writes with a running
position; the model's two passes refine it.  C16–C29 are corollaries.  C30: the
model is a total function; order independence is shown for environments that
agree as maps.

Macros (C31–C36).  C31: a substitution specification; C32: injective stream;
C33–C35: induction on the expansion; C36: well-founded rank on macro names gives
enough fuel; divergence for direct recursion.

Lexing and parsing (C37–C45).  C37: length decreases.  C38: tiling relation by
induction.  C39, C41: positional-value and escape specifications.  C40: comment
equivalence.  C42–C45: induction over token lists.

Includes, C headers, files (C46–C48, C61).  Token-level model with an abstract
file system.

Disassembly (C49–C54).  Worklist with a measure; closure invariant; coverage by
induction on the position; re-assembly through the assembler model.

Images, VMI, reports (C55–C60, C62, C63).  Bit packing lemmas, list layout
lemmas, line lemmas.

Whole programs (C64–C70).  C64: invariants of the lexer, parser, includes and
macro expansion composed with the assembler theorems.  C65: every printed
statement is a line of the grammar with the lower-cased statement as its value;
files made of such lines go through the front end unchanged; what the lexer
guarantees of names and numbers is carried through the whole front end, so that
only the real limits remain as hypotheses (`Rewritable`).  C66: induction on
the well-founded tree of includes bounds the depth of the recursion.  C67: each
step of reading either is free of panics or names the cause.  C68: a relation
between two runs (same tokens on the same lines in sources and C headers, same files loaded) that every
step of reading preserves.  C69: the lines made from images are
comments and literals; such programs are printed, read back (with or without a
final line break) and assembled to exactly their data.  C70: a run is the list of all disks it goes through;
an invariant of each write gives what a crash at any moment leaves behind.

Places of errors (C71).  A model with all spans, related to the other one by
forgetting them.  `Spec/Places.lean` says for every kind of error which tokens on
which line, expanded from which macro calls, may be blamed; invariants of the
parser (every part of a statement has the range of its tokens), of macro
expansion (every part is in the macro's body or in a call) and of the assembler
give that every error is at such a place.

Which error (C76).  `Spec/Reasons.lean` says what the first thing is that is wrong
with a program.  The runs over the statements are cut at the statement that
fails; the theorems about the assembler without places (C12–C27) give the layout,
labels, variables and bytes of what is before it, and the tables of names carry
the invariant that every entry has the place of its definition.  Conversely,
what the specification says comes first is what the run fails with, so that it
allows one error only.

Which syntax error (C77).  `Spec/Syntax.lean` is the grammar without the checks of
meaning as a language of token sequences, and says of a line that is not in it
which token is the first that cannot be there and what can.  The proof goes
through the parsers from left to right: each one, on success, has read a sentence
of its part of the grammar, and depends on the tokens after it only through the
first one; on failure it has read a beginning of a sentence, and the set of
tokens that can follow it is computed.  Conversely the specification allows one
error only: two of its cases for the same tokens are the same error.

Which error of a macro call (C78).  `Spec/Expansion.lean` adds places to the
substitution of C31 and says what the first thing is that is wrong with a call.
The run is cut at the line of the body, or the statement, that fails; what is
before it means what C31 says, and substitution in the arguments of the line has
a value or a leftmost fault.  The converse is by induction on the specification,
with enough fuel.  As in C31 the arguments of calls outside of macros are closed.

Includes of data (C79).  `Spec/DataIncludes.lean` says which bytes an include
stands for, from the layouts of icons and sprites that C17 to C22 use, and what
the first thing is that is wrong with it.  Each check of the code is shown to be
one case; the statements are then treated one after the other.

Source files (C80).  `Spec/SourceErrors.lean` says which files can be read, and what
the first thing is that is wrong with those that cannot.  One direction is by
induction on the fuel, the other by induction on the specification.  The number of
a file in a place is known only when the run is over: the first direction holds for
every numbering that agrees with the files loaded at the end, and the other moves
the tokens to the number a file has in the run.

From files to bytes (C81).  `Spec/SourceTokens.lean` says which tokens files stand
for, with any numbering of the files; the tokens of two numberings differ only in
places, and split into the same lines.  `Spec/AssembledFiles.lean` composes this with
the grammar (C45), includes of data (C79), macros (C31) and the meaning of a program
(C22).  Two lists of data lines with the same bytes can stand for one another, which
gives uniqueness; icons are excepted since the order of their palettes is not fixed.

From files to errors (C82).  `Spec/FileErrors.lean` puts the reasons of C80, C77, C79,
C78 and C76 in the order of the stages.  That the error does not depend on how included
data are written out is a simulation of the label pass over both programs
(`label_same`), and of the other passes by the layout.

Reports (C72, C73).  `Model/Located/Report.lean` is the printing of places; with
C71_in_files every place is in a loaded file, at the end of some of its
clusters, and the lemmas of C63 give the line.  That the clusters of a line do
not depend on what follows needs `BreaksLines seg`, a consequence of the rules of
Unicode for line breaks.  C73: the lists of forms in the messages are compared
with the table of the manual (a finite table), which C44 relates to what is accepted.

Image files (C74, C75).  `Model/Json.lean` writes JSON as serde_json is documented
to; the specification is the grammar of RFC 8259 as an inductive relation, shown
to be unambiguous.  `Model/LoadImage.lean` is the part of loading that is in
src/img.rs, over decoders as parameters; `load` in the other properties can be
any function, so in particular this one.

None of the properties is considered impossible to express; parts resting on
runtime behaviour (regex engine, Unicode, floating point, file system) are
modelled as stated above.

Messages (C83).  `Model/Located/Messages.lean` has the texts of print_error in the
order in which they are written.  `Spec/Messages.lean` gives for each error a sentence
with gaps and what stands in the gaps; `Message` puts the places of C72 under it.  That
each error has a message follows from C71, as only explained errors are blamed on
places.  That the messages can be told apart: no sentence starts like another up to its
first gap, with four exceptions that differ later; the gaps of one sentence are numbers,
or end with the line.

Warnings (C84).  `Model/Located/Warnings.lean` repeats the functions that look for
files, with the warnings they write; `Lemmas/Located/Warnings.lean` proves that apart
from the warnings they do what the functions of `Model/Located/Read.lean` do.  An
invariant of every run (`Heard`) gives the claims for every outcome.  The list of a run
that succeeds is compared with `Spec/Warnings.lean` by induction on the depth of
includes, like the tokens in C81; that there is one list only follows as there.

Other messages (C85).  `Model/Stderr.lean` repeats the loops of the tracer with the positions
they report; without these they are the loops of `Model/Disasm.lean` (`traceNotes_eq`).  An
invariant says that each position beyond the end is reported or waiting (`Told`), another
that each waiting position is where control goes (`PointedFrom`).  For icons the errors of
C58 are compared with the texts.

Renaming (C86).  A renaming maps names in lower case to names in lower case, injectively, and
keeps what is local.  Two runs of `assemble` on a program and on the renamed one go in step:
environments agree on corresponding names, and outcomes are equal but for the names in errors
(`RenRes`).  Injectivity is asked for all names, so replacing one name is an exchange of two
names, which agrees with it on a program without the new name (`exchange`).  For texts the
grammar of C43 is used: the tokens of a line with names replaced are the line of the renamed
statements (`ren_line`).  Macros are left out there, as their parameters and labels have names
of their own.

Listings (C87).  The lines of a listing are compared with an outline: the comments in full
and the number of lines of data after each.  With C57 and C69, which are about the data, this
determines the listing but for how the data is spread over the lines.

Ends (C88).  `expand` prints what was read: strings are UTF-8 as they come from tokens,
and escaping keeps them so; this is carried through parsing, the includes of data and
macro expansion.  For the other commands, each way to end is characterised by the
arguments and the disk.

Search of `.cnop` (C27_hangs, C30_ends_odd, C66_release).  In a wrapping build the search
visits s·k wrapped to 32 bits; by Bézout the greatest value reached is 2^31 - gcd(k, 2^32).
The passes keep the position within 32 bits, so a program can only run for ever in a `.cnop`.

C interface (C89).  Memory is a function from addresses to bytes; induction on the strings
and on the array of pointers.

Comments of a disassembly (C90).  The jumps noted by the tracer are those of the flow of
control of C50 (`Jumps`, kept by every visit).  The lines are grouped: each line that stands
for bytes with the other lines directly before it; induction over the main loop.

Line ends (C91).  By induction on the lexical structure, a text with CR LF at the ends of its
lines has the same tokens on the same lines, as a source and as a C header; the rest is C68.  [C91_limits]: the line end in a
string is part of the string.

## 5. Disagreements found between the English properties and the code

Each is a theorem with a concrete witness (name in brackets) or, where marked
"read", was found in reading the code and is visible in the model.

Assembler
* `.cnop a, 0` moves to the absolute address `a`; a negative multiple makes the
  search for a multiple overflow or, in a wrapping build, start again from above
  [C27_hangs, C27_ends].
* `.org 2147483647` and `.cnop 0, 4`: a wrapping build runs for ever
  [C30_hang]; when exactly, says C27_hangs; `.org 2147483647` and `.byte 1`: a checked build panics.
* Variables are evaluated without local labels; `.foo = e` defines a global name
  (read).
* The output is as long as the highest position ever reached, including a
  trailing `.org` or `.cnop` (C22).
* `.text`/`.string` with a size of 2^31 or more wraps (read; `Fits`).
* For callers of the library only: a label that is not lower case makes
  `generate_bytes` panic, and a label with the empty name loses its local
  labels (hypothesis `SourceLabels`, met by all parsed programs: C64_source).
* 12-bit jump targets compare pages modulo 64K (C09 states it).
* `decode` of no bytes panics [C04_decode_empty].

Macros
* Arguments are substituted again after substitution, so an argument that
  mentions a parameter name of the called macro is captured
  [C31_open_arguments, C33_open_arguments, C36_open_arguments].
* A macro that calls itself is expanded for ever (C36).
* An unterminated `%macro` swallows the rest of the file silently; a bare local
  label on the last line of a macro before the end of file is rejected (read).

Lexer and parser
* A number literal above 2147483647 panics [C39_too_big].
* A token that ends inside a grapheme (a letter with a combining accent) makes
  the lexer run for ever [C37_combining_hang].
* The position reported for an unexpected character is the end of the last
  token, not the character [C62_unexpected].
* A label and a directive on one line are rejected; `ld equ` is taken for a
  definition; unknown icon and sprite properties are ignored and the last
  duplicate wins (C43 states the grammar as it is).

Printing
* Octal numbers are printed as `$…`, which is read as hexadecimal
  [C15_octal, C65_limits]; negative hexadecimal or binary numbers are printed
  with 32 bits, which the lexer rejects (excluded by `Printable`).
* `.text` and `.string` are printed without quotes, quotes and backslashes in
  strings are not escaped, macro calls are printed without commas [C65_limits].

Includes
* The second of two consecutive includes of a one-line file is dropped
  [C46_twice]; a file that includes itself is read for ever [C46_cycle]; a C
  header with an include directive panics [C46_header_include]; a bare local
  label at the end of a file included in a macro is rejected [C46_bare_label].
* A `#define` without a value, `#ifdef` and other directives are errors
  [C48_no_expression]; a C comment with non-ASCII text may panic
  [C48_comment_crash].
* Eyecatch paths in included files are resolved relative to the main file
  (read).
* The path of an included file is resolved twice, so a relative path that was
  found is looked up once more from the including file (`FoundAt`; no effect on
  absolute paths).

Disassembler
* Pending positions are not deduplicated: the work can be exponential
  [C49_blowup].
* Labels are made for targets that are not listed, so that the listing does not
  assemble [C53_dangling].
* The final `.cnop len % 0x200, 0x200` has the right effect only if the length
  is a multiple of 0x200 and the last block is not empty [C54_iff].
* Overlapping instructions are listed one after the other, without `.org`
  [C54_overlap].
* "Overlaps with" does not name an instruction that starts two bytes before, although that one
  names this: the loop `1..2` looks only one byte back [C90_left_out].

Images, VMI, messages
* A picture exactly half way between black and white is dark or light depending
  on rounding of floating point [C55_tie]; an image without frames panics
  (read).
* A VMS file that is too short panics [C60_short].
* The excerpt of the last line contains its line break [C63_final_newline]; a
  text of one byte panics [C63_one_byte], and so does reporting an error at its
  start: a file with just a `?` makes a checked build of the assembler panic
  [C72_one_byte]; these are exactly the places that cannot be reported, and without
  overflow checks only those in a file with just a carriage return [C72_panics,
  C83_crash].
* If the working directory is the root, paths are shown in full [C72_path].
* Of a prefix operator and its operand only the operator is highlighted, and
  parentheses are not [C71_not_whole]; the range of an expression that ends in a
  prefix operator's operand ends at that operator (read).
* The numbers made for images and for included bytes have no place of their own:
  an icon with 65536 frames or more, or a sprite with a header whose second or
  later frame is more than 255 pixels wide or high, is blamed on the first byte
  of the main file (`Blames.frames`, `Blames.frameSize`).
* A label in a macro's body is reported without the call it was expanded from;
  so is the definition in a duplicate (read).

Messages
* "The .byte directive requires…" has a line break after "The", " Must be a literal
  number" starts with a space, and the same sentence "No such macro argument name."
  is used for a parameter that is no parameter of the macro and for a parameter in a
  call outside of macros (`Spec/Messages.lean`).
* The sentence for icons of a wrong size gives the expected size, not the actual one
  (`Spec/Messages.lean`).
* A name that is not defined in an icon's speed is reported as "HashMap 'x' not found"
  (read).
* `vmi` does not say why it failed (C85_vmi).  `disassemble` prints its errors as Rust
  values, and as its entry points are fixed, it reports positions beyond the end for every
  binary of less than 304 bytes; a position before the start is reported as a number
  near 2^64 (example in `Props/Stderr.lean`).

Includes
* A source or a C header is looked for twice, so it is warned about twice; data are
  looked for when the file is read and once more from the main file.  A file next to one
  that was found in the working directory is warned about although it is where it should
  be (examples in `Props/Warnings.lean`).
* Whatever follows the name of a C header on the line of the include is dropped
  silently; for a source it is an error (`Spec/SourceErrors.lean`).
* On a line that includes data, every string that equals the file name is replaced by
  the path, so also an eyecatch with the same name (`repath`).
* `.include sprite` is printed with `type = …`, which cannot be read back (read).

Commands
* `image -o` calls `write` once and ignores how much was written, so the file may
  be cut although the exit code is 0 [C70_image_cut]; its output has no final
  line break (read).
* An unknown `--format` silently means `1bit-asm`; an icon `--speed` that is not a
  16-bit number, an image that cannot be loaded by `image`, and a file that
  cannot be written make the program panic (read; `Spec/Command.lean`).

## 6. Axioms

`lake env lean` on a file with `#print axioms` for every theorem in
`MANIFEST.json` prints for each a subset of `propext`, `Classical.choice`,
`Quot.sound`, and no others.  `tools/axioms.sh` repeats this.
