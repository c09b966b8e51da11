import json
P=[]
def p(title, statement, quantifier, why, anchors):
    P.append(dict(id="C%02d"%(len(P)+1), title=title, statement=statement, quantifier=quantifier, why_tests_cant=why, anchors=anchors))
I="src/instruction.rs"; D="waterbear-instruction-derive/src/lib.rs"; E="src/expression.rs"; A="src/asm.rs"; T="src/ast.rs"; L="src/lexer.rs"; R="src/parser.rs"; S="src/disasm.rs"; G="src/img.rs"; F="src/files.rs"; H="src/cheader.rs"; N="src/input.rs"; B="src/lib.rs"
p("Decoding an encoded instruction gives it back","For every instruction whose operands are in range, decoding its encoding, even followed by arbitrary further bytes, yields exactly that instruction.","every instruction form, every in-range operand value, every trailing byte string","2^20+ operand combinations times unbounded trailing bytes; the generated decoder is an ordered list of guarded arms and one shadowed arm breaks a single corner",[I+":Instr::encode",I+":Instr::decode",D+":instruction_derive"])
p("Encoding a decoded instruction reproduces the bytes","Whenever decoding a byte string succeeds, encoding the decoded instruction gives exactly the first size() bytes of that string.","every byte string","every byte string of every length; sampled bytes miss bit-field permutations that only show on some operand bits",[I+":Instr::decode",I+":Instr::encode",D+":ranges_to_extractors"])
p("Instruction size is the encoded length","For every instruction, size() equals the number of bytes encode() produces, lies between 1 and 3, and is unchanged by evaluating the operands.","every instruction and environment","all instructions times all operand values and environments; the assembler lays out code from size() before encode() ever runs",[I+":Instr::eval",D+":instruction_derive"])
p("Decoding is total on complete input","Decoding a non-empty byte string never panics, and fails only if the string is shorter than the instruction its first byte selects; every first byte selects exactly one form.","every non-empty byte string","the claim is about all 256 opcodes and all truncations at once, plus uniqueness of the matching form",[I+":Instr::decode",D+":all_possible_opcodes"])
p("Encodings follow the documented bit patterns","For every documented form, the bytes produced by encode() are the bits of the pattern in docs/instructions.md with the operand bits in the documented places.","every form and every in-range operand","bit layouts are per operand bit; a swapped bit is visible only for operands where the two bits differ",[I+":Instr",D+":parse_bit_pattern","docs/instructions.md"])
p("Operands are never silently truncated","Evaluating an instruction succeeds only if every operand value fits its field (3, 8, 9, 12, 16 bits as documented); otherwise an out-of-range error is reported and no bytes are produced.","every instruction, environment and position","the boundary must hold for every one of ~70 forms and every 32-bit value, including negatives",[I+":eval",I+":eval8",I+":eval9",I+":eval12",I+":eval16"])
p("Short relative branches reach their target","If a short branch (br, bz, bnz, bp, bpc, bn, dbnz, be, bne) at address p assembles, then a CPU that adds the sign-extended offset byte to the address of the next instruction lands on the operand's value; it is rejected exactly when the target is not a 16-bit address or the distance is outside -128..127.","every short branch form, position and target","positions and targets are unbounded and the off-by-instruction-size bug is per form",[I+":rel8",I+":Instr::eval"])
p("Long relative branches reach their target","If brf or callr at address p assembles, then the CPU rule of docs/instructions.md (next instruction address minus one plus the little-endian offset, modulo 65536) lands on the operand's value modulo 65536.","every position and target","off-by-one and byte-order errors cancel on symmetric samples; needs all positions and targets",[I+":rel16",I+":Instr::eval"])
p("Absolute 12-bit jumps reach their target","If jmp or call at address p assembles for target t, then replacing the low 12 bits of the next instruction's address by the encoded field gives t; targets in another 4 KiB page are rejected.","every position and target","page-boundary behaviour depends on the pair (position, target) over an unbounded range",[I+":eval12",I+":Instr::eval"])
p("Expressions evaluate to their mathematical value","Evaluating an expression whose intermediate results fit in 32 bits returns the mathematical value of the expression tree (truncating division, byte selectors, bitwise operators on two's complement).","every expression tree and environment","expression trees are unbounded in depth and names range over every environment",[E+":Expr::eval"])
p("Expression evaluation fails only for a stated reason","Evaluation returns an error only if a name is unbound, a divisor is zero or an unexpanded macro construct is reached, and the error is that of the leftmost failing operand; otherwise it returns a value or stops on 32-bit overflow.","every expression tree and environment","error precedence over unbounded trees",[E+":Expr::eval"])
p("Expression evaluation depends only on the names that occur","Two environments that agree on the names occurring in an expression give the same result.","every expression and pair of environments","quantifies over pairs of environments",[E+":Expr::eval","src/env.rs:Env::get"])
p("Operator precedence and associativity","Parsing the tokens of an expression written with minimal parentheses according to the documented precedences (unary, then * /, then + -, then & | ^, all left associative) yields exactly the intended tree and stops right after it.","every expression tree and every following token that cannot continue it","unbounded nesting of all operator combinations",[R+":ExprParser::parse",R+":Precedence"])
p("The expression parser accepts only the grammar","Whenever expression parsing succeeds, the tokens consumed form a sentence of the documented precedence grammar for the returned tree, and the remaining tokens are an untouched suffix.","every token sequence","all token sequences, including malformed ones",[R+":ExprParser::parse"])
p("Printed expressions read back","Printing an expression and re-reading the printed text gives an expression with the same value in every environment (non-negative literals, non-octal radix).","every expression tree with printable literals","unbounded trees and literal values; parenthesisation errors only show under specific nesting",[E+":Display for Expr",L+":lex_input",R+":ExprParser::parse"])
p("A label denotes the address where the next byte goes","In a successful assembly, every label's value is the output position reached by the statements before it.","every program","every program shape; addresses depend on the sizes of all earlier statements",[A+":compute_labels",A+":generate_bytes"])
p("Both passes agree on positions","While emitting bytes, the position of each statement is the position computed for it in the label pass.","every program","disagreement would need a particular statement kind in a particular place; must hold for all programs",[A+":compute_labels",A+":generate_bytes",T+":Directive::size"])
p("Duplicate names are rejected","A program that defines the same label or variable name twice in one scope is rejected with a duplicate-name error, and a program without duplicates is never rejected for that reason.","every program","pairs of definitions at any distance, in any order",[A+":add_name",A+":compute_labels",A+":compute_names"])
p("Local labels are scoped to their global label","A dotted name used in an instruction or data directive resolves only to local labels defined under the same global label; equal local names under different global labels do not interfere.","every program","scoping is a property of all pairs of definitions and uses",[A+":compute_labels","src/env.rs:NamesEnv::get"])
p("Names are case-insensitive","Changing the ASCII case of identifiers anywhere in the source text does not change the assembled bytes or the outcome.","every source text and every recasing of it","every recasing of every text",[L+":read_token",A+":add_name"])
p("Output length","The output length is the largest position reached by any statement, counting forward .org moves and padding.","every program","depends on the maximum over all prefixes of the program",[A+":generate_bytes"])
p("Bytes not written are zero, and later statements win","Each output byte equals the byte produced by the last statement covering that position, or zero if none covers it.","every program and output index","overlaps created by .org are unbounded",[A+":generate_bytes"])
p("Assembling never writes outside the output buffer","For every program laid out below 2 GiB (and, in an overflow-checked build, without a .cnop a,0 that moves backwards), byte generation never indexes outside the output and assembling never panics other than by 32-bit overflow in one of the program's expressions.","every program","absence of a panic over all programs",[A+":generate_bytes",T+":Directive::size"])
p(".byte semantics","Each .byte value must be in -128..255 and is emitted as that value modulo 256, strings verbatim, in order; the directive's size is the number of bytes emitted; any other value is rejected.","every .byte argument list and environment","argument lists of any length and all 32-bit values",[A+":generate_bytes",T+":Directive::size"])
p(".word semantics","Each .word value must be in -32768..65535 and is emitted modulo 65536 as two little-endian bytes, in order, with size two per value; any other value is rejected.","every .word argument list and environment","argument lists of any length and all 32-bit values",[A+":generate_bytes",T+":Directive::size"])
p(".text and .string semantics",".text n pads the string with spaces and .string n with nul bytes to exactly n bytes; a string longer than n is rejected.","every length and string","all lengths, strings",[A+":generate_bytes"])
p(".cnop alignment","For a positive multiple and non-negative addend, .cnop a,m moves the position to a plus the smallest multiple of m not below the current position.","every position, addend and multiple","all positions and multiples",[T+":Directive::eval_cnop"])
p("Layout-neutral statements emit nothing","Inserting comments, local labels or variable definitions whose names are fresh and unused anywhere leaves the outcome unchanged. (A fresh global label opens a new scope for local labels, so it is not neutral.)","every program, insertion point and inserted statement","all insertion points in all programs",[A+":generate_bytes",A+":compute_labels"])
p("Variables are resolved in order of definition","A name = expr or name equ expr definition sees all labels and the variables defined before it, and its value is its expression's value in that environment; using a later variable is an unknown-name error.","every program","all orders of definitions",[A+":compute_names"])
p("Assembly is deterministic in hash order and total","For macro-free programs assembly terminates: always in an overflow-checked build, and for every program laid out below 2 GiB in an unchecked build. Its result does not depend on hash map iteration order.","every program","iteration order and termination are not testable",[A+":assemble"])
p("Macro expansion substitutes arguments","Expanding a call to a macro, whose arguments do not themselves use macro parameters, produces the macro's body with every parameter replaced by the corresponding argument, in body order, through any nesting of calls.","every macro, call and argument list","all macro bodies and arguments",[A+":expand",A+":replace_args",E+":replace_macro_args"])
p("Macro labels are hygienic","Labels ending in % get a name that is unique to each invocation, so two invocations never define the same name, and within one invocation definition and uses agree.","every program and number of invocations","collisions need particular histories of expansions",[A+":gen_labels",A+":expand"])
p("Expansion leaves no macro constructs","A successful expansion contains no macro calls; if macro parameters and macro labels are used only inside macro definitions, none is left in the expansion, and evaluating it never fails for that reason.","every program","all nesting depths of macro calls",[A+":expand_macros",A+":expand"])
p("Programs without macros are unchanged by expansion","Expanding a program without macro calls returns the same statements.","every program without macro calls","all such programs",[A+":expand_macros"])
p("Macros are selected by name and argument count","A call expands the macro with that exact name and arity, and a call with no such macro is an error.","every macro table and call","all macro tables",[A+":expand",T+":MacroIdentifier"])
p("Expansion terminates for non-recursive macros","If no macro reaches itself through calls in macro bodies, and calls outside macros do not use macro parameters, expansion finishes; with recursion it never succeeds, and with direct recursion it does not finish.","every acyclic macro table and program","termination",[A+":expand"])
p("Lexing terminates and makes progress","On ASCII text the lexer always stops, and each token it returns consumes at least one character.","every ASCII text","termination on all inputs; a zero-length match loops forever",[L+":lex_for_ws",N+":Input::update"])
p("Tokens tile the source","The token spans of a lexed text are in order, do not overlap, and everything between them is whitespace or comment.","every ASCII text","all texts",[L+":read_token",L+":skip_whitespace_and_comments"])
p("Number literals have the value they spell","Each decimal, hex ($ or 0x), binary (% or 0b) and octal (0o) literal, with ' separators between digits, lexes to one number token whose value is the positional value of its digits, when it fits 31 bits.","every digit string and separator placement","digit strings of any length",[L+":to_hex_num",L+":to_dec_num",L+":read_token"])
p("Comments do not matter","Replacing the text of a comment, or removing it, does not change the token sequence.","every text and comment","all comment contents",[L+":skip_comment",L+":skip_star_comment"])
p("String escapes","A string literal's value is its contents with \\r \\n \\t \\b \\0 replaced by the control bytes and any other escaped character by itself.","every string literal","all strings",[L+":clean_str"])
p("Lines partition the tokens","Line splitting returns consecutive non-empty slices whose concatenation is the token sequence; tokens of one slice share the line of its first token.","every token sequence","all token sequences",[R+":lines"])
p("Nothing on a line is ignored","If parsing succeeds, every token of every non-macro line is consumed by the statements of that line; otherwise an error is reported.","every line","all token sequences",[R+":parse_line",R+":parse_statement"])
p("Instructions accept exactly the documented operand shapes","An instruction line is accepted iff its name and operand kinds match a documented form, and yields that form with its operands in order; known names with other operands give a wrong-arguments error, and exists() is true exactly for names with a form.","every name and argument list","all names and argument lists",[R+":make_instr",D+":exists"])
p("Macro definitions are checked","A macro named like an instruction, with a repeated parameter, or with the same name and parameter count as an earlier macro is rejected.","every macro definition","all token sequences and macro tables",[R+":parse_macro_header"])
p("Includes behave like textual insertion","Replacing .include lines by the tokens of the named files, recursively, gives the same statements as a single file with the contents in place, provided line numbers of neighbouring files do not merge.","every finite include tree","all include trees",[A+":replace_includes"])
p("Binary includes reproduce the file","A bytes include contributes exactly the file's bytes, in order, at the position of the directive.","every file content","all contents",[A+":replace_byte_includes"])
p("C header defines become aliases","A line '#define NAME expr' in an included C header has the effect of NAME equ expr, and other lines are left alone.","every header text","all headers",[H+":lex_input"])
p("Disassembly terminates","Tracing from any entry points over any byte string terminates.","every byte string and entry point list","termination over all control-flow graphs",[S+":build_instruction_graph"])
p("Disassembly follows control flow completely","The traced instructions are closed under control flow: entry points and all in-range successors of traced instructions are traced.","every byte string and entry point list","all control-flow graphs",[S+":build_instruction_graph",S+":targets"])
p("Disassembled instructions are the bytes in the file","Every traced instruction at an address is the decoding of the bytes at that address, and re-encoding it reproduces them.","every byte string and traced address","all byte strings",[S+":build_instruction_graph",I+":decode"])
p("Disassembly covers every byte","Every byte of the input lies in a listed instruction, in a .byte line carrying its value, or in an all-zero block of at most 16 bytes.","every byte string and entry point list","all byte strings",[S+":disassemble"])
p("Symbolic operands keep their numeric value","The operand expressions in the disassembly evaluate, with the emitted aliases and each label at its address, to the numeric operand decoded from the bytes.","every instruction and byte string","all instructions, addresses",[S+":lift_instr",S+":compute_aliases",S+":compute_labels"])
p("Reassembling a disassembly reproduces the file","If targets are instruction starts and the file's length is a multiple of 512, assembling the disassembly yields the original bytes.","every byte string satisfying the conditions","all byte strings",[S+":disassemble",A+":assemble"])
p("Sprite rows pack one bit per pixel","Bit 7-(x mod 8) of byte x/8 of a sprite row is 1 exactly when pixel x is dark (or, in the mask, transparent); padding bits are 0 in the image and 1 in the mask; a row of w pixels takes ceil(w/8) bytes.","every row width and pixels","all widths and pixel values",[G+":Frame::to_1bit_asm"])
p("Icon palettes index every colour","Palette construction assigns distinct indices 0..n-1 to the distinct colours in first-occurrence order, and every pixel's colour is in the palette.","every image","all images",[G+":Image::get_palette"])
p("Icon pixels survive packing","Unpacking the emitted pixel data with the emitted palette gives back every pixel's 4-bit-per-channel colour, in the 16-colour, 256-colour and true-colour formats.","every image","all images",[G+":Image::to_icon",G+":Color::to_palette_color"])
p("Icon size and palette limits are enforced","An icon is produced only for 32x32 frames with at most 16 colours and a 72x56 eyecatch; its length is then determined by the number of frames.","every image","all images",[G+":to_icon"])
p("Colour scaling is correct rounding","Scaling a channel from 0..255 to 0..15 rounds to nearest, is monotone, maps 0 to 0 and 255 to 15, and each of the 16 levels is reached.","every channel value","finite but complete; exact rounding of ties",[G+":Color::scale_channels"])
p("VMI header layout","The generated VMI file is 108 bytes: checksum, description copied from the VMS file, copyright, time, file number 1, resource name, file name, game flag and little-endian size, each in its place and truncated or nul-padded to its field.","every VMS file, name, copyright text and time","all inputs",[B+":generate_vmi"])
p("Loading a file twice returns the same contents","Within one run, loading a path again returns the first load's contents and id even if the file changed on disk, and distinct paths get distinct ids.","every sequence of loads and every evolution of the file system","histories",[F+":SourceFiles::load"])
p("Positions in error messages are right","The line of a location is one plus the number of line ends before it, and the column is the number of characters since the last line end.","every ASCII text and offset","all texts",[N+":Input::update"])
p("Error excerpts show the offending line","The excerpt printed for a location is the whole source line containing it, and nothing else, and the caret line is as wide as the offending span.","every text and location","all texts and offsets",[B+":line_for_pos",B+":caret"])
p("The front end hands the assembler well-formed programs","Whatever the source files contain, a program that was read and macro-expanded has only lower-case non-empty label names, literals in range and no macro calls or includes left; so assembling a file yields the bytes the expanded program means, and an overflow-checked build panics in the assembler only for a layout beyond 2 GiB or backwards, or an overflowing expression, and never runs for ever there.","every file system, main file and chain of includes and macros","all texts, include trees and macro tables",[A+":assemble_file",A+":read_statements",A+":expand_macros",A+":assemble"])
p("Printed programs read back","The text printed for a program (the output of the expand command, and each line of it) is read back as the same statements, up to comments and the case of names; a file holding the output of expand assembles to exactly the bytes of the file that was expanded, or fails in the same way. Not covered, and not true: octal literals, .text and .string, strings with quotes or backslashes, macro calls with several arguments.","every list of statements within the stated limits, every include tree and macro table it was expanded from","all programs",[A+":expand_file","src/ast.rs:Display for Statement","src/instruction.rs:Display for Instr"])
open('properties.jsonl','w').write(''.join(json.dumps(x)+"\n" for x in P))
print(len(P))
