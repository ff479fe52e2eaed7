{"id": "C01", "title": "Lexing is lossless", "statement": "Scanning any source text terminates. Concatenating, in token order, the exact source spelling of every token and the blanks skipped between them gives back the source, byte for byte, up to the point of an unterminated string; the only bytes not inside a token are spaces and tabs.", "quantifier": "every byte string, valid UTF-8 or not", "why_tests_cant": "the input space is all byte strings; tests lex a dozen snippets", "anchors": ["lexer.go:Lexer.readTokens", "lexer.go:Lexer.readValue", "lexer.go:Lexer.readComment", "lexer.go:Lexer.readEol", "process.go:readTokens"]}
{"id": "C02", "title": "Token positions are real positions", "statement": "The line of a token is the number of line breaks (\\n, \\r\\n or \\r) before it and its begin/end columns are byte offsets from the start of that line, so that editors highlight the right characters.", "quantifier": "every source text and every token of it", "why_tests_cant": "depends on every combination of line break style, string and comment", "anchors": ["lexer.go:Lexer.emit", "lexer.go:Lexer.readEol", "lexer.go:Token"]}
{"id": "C03", "title": "Shape of value tokens", "statement": "A value token is never empty; an unquoted one contains no blank and no line break, and a quoted one starts and ends with a double quote. A comment token never contains a line break.", "quantifier": "every source text and every token of it", "why_tests_cant": "needs all interleavings of quotes, backslashes, blanks and slashes", "anchors": ["lexer.go:isTerminating", "lexer.go:Lexer.readValue", "lexer.go:Lexer.readComment"]}
{"id": "C04", "title": "Lexing is compositional over lines", "statement": "If a text lexes without error then lexing it followed by a line break and more text gives its tokens, an end-of-line token, and the tokens of the rest moved down: an edit below never changes tokens above.", "quantifier": "every pair of texts, the first one error free", "why_tests_cant": "pairs of arbitrary texts", "anchors": ["lexer.go:Lexer.readTokens"]}
{"id": "C05", "title": "Unterminated strings are the only lexical error", "statement": "Lexing reports at most one error, it is 'incomplete string', it is reported exactly when some string opened at a token start is never closed, and it is positioned at the end of the text; nothing is lost before the opening quote.", "quantifier": "every source text", "why_tests_cant": "error iff condition ranges over all texts", "anchors": ["lexer.go:Lexer.readValue", "lexer.go:Lexer.fail", "lexer.go:Lexer.Errors"]}
{"id": "C06", "title": "String literals end where TEAL says they end", "statement": "A quoted literal ends at the first quote that is not escaped, where a backslash escapes exactly the next character, so that \"a\\\\\" is a complete literal.", "quantifier": "every quoted literal", "why_tests_cant": "all runs of backslashes before a quote", "anchors": ["lexer.go:Lexer.readValue"]}
{"id": "C07", "title": "Editor line splitting", "statement": "Splitting a document into lines loses nothing but the line breaks, yields exactly one more line than there are line breaks, and no line contains a line break character.", "quantifier": "every document text", "why_tests_cant": "all mixes of \\r, \\n and \\r\\n", "anchors": ["lsp/doc.go:splitLines"]}
{"id": "C08", "title": "Editor lines and language lines agree", "statement": "Line k of the split document is the line on which the lexer reports its tokens of line k, so edits computed from diagnostics land on the line the user sees.", "quantifier": "every document text", "why_tests_cant": "relates two independent scanners on every text", "anchors": ["lsp/doc.go:splitLines", "lexer.go:Lexer.readEol"]}
{"id": "C09", "title": "Semantic token encoding is decodable", "statement": "Encoding semantic tokens yields five numbers per token; decoding the relative positions in order yields precisely the given tokens ordered by line then column.", "quantifier": "every list of semantic tokens with 32-bit coordinates, in any order", "why_tests_cant": "all lists and orders", "anchors": ["semantics.go:SemanticTokens.Encode"]}
{"id": "C10", "title": "Range overlap", "statement": "Two editor ranges are reported overlapping exactly when they share a position; the relation is symmetric, and every well-formed range overlaps itself.", "quantifier": "every pair of ranges", "why_tests_cant": "all coordinates", "anchors": ["range.go:Overlaps"]}
{"id": "C11", "title": "Integer literals", "statement": "An integer literal is accepted exactly when it denotes a number below 2^64, and the accepted value is the number written; printing an integer in decimal and reading it back is the identity.", "quantifier": "every byte string and every 64-bit number", "why_tests_cant": "2^64 values, all spellings", "anchors": ["parser.go:readInt", "process.go:parserContext.mustReadInt", "expr.go:IntExpr.String"]}
{"id": "C12", "title": "Named integer constants", "statement": "`int NoOp`, `int pay`, ... give the protocol's number for that name, every constant's long and short names agree, and any other word is accepted only as an integer literal.", "quantifier": "every word", "why_tests_cant": "all words, not only the table", "anchors": ["parser.go:readConstInt", "go_algorand.go:txnTypeMap", "go_algorand.go:onCompletionMap"]}
{"id": "C13", "title": "String literal decoding", "statement": "Decoding a quoted literal never runs off the end; for every byte string, escaping it and decoding the literal gives the bytes back; and every accepted literal decodes to what its escapes denote.", "quantifier": "every byte string / every literal", "why_tests_cant": "all byte strings including quotes, backslashes, control and non-ASCII bytes", "anchors": ["go_algorand.go:parseStringLiteral"]}
{"id": "C14", "title": "Hex, base32 and base64 constants", "statement": "For every byte string, writing it in hex, base32 (padded or not) or base64 and reading the constant gives the byte string back, in each of the accepted spellings.", "quantifier": "every byte string and every accepted spelling", "why_tests_cant": "all lengths and padding residues", "anchors": ["process.go:parserContext.parseBytes", "go_algorand.go:base32DecodeAnyPadding"]}
{"id": "C15", "title": "Named fields are gated by version", "statement": "A field written by name is accepted exactly when the program's version is at least the version that introduced the field, for every opcode that takes a field.", "quantifier": "every field name, opcode context and version", "why_tests_cant": "cross product of tables, contexts and all versions", "anchors": ["parser.go:readTxnField", "parser.go:readGlobalField", "parser.go:readAcctParams", "go_algorand.go:txnFieldSpecs"]}
{"id": "C16", "title": "Field names and numbers agree", "statement": "A field accepted by name is stored as the number that the same opcode prints for it; field names are unambiguous; a number is accepted as a field exactly when it fits a byte.", "quantifier": "every field table entry and every word", "why_tests_cant": "all words for the numeric fallback", "anchors": ["parser.go:readTxnField", "go_algorand.go:TxnFieldNames"]}
{"id": "C17", "title": "Processing never crashes", "statement": "Processing any text returns a result.", "quantifier": "every source text", "why_tests_cant": "a single crashing text anywhere in an infinite space refutes it", "anchors": ["process.go:Process"]}
{"id": "C18", "title": "One instruction per source line", "statement": "The listing has exactly one entry per source line, so that instruction index and source line can be used interchangeably by linter, debugger and editor.", "quantifier": "every source text", "why_tests_cant": "all texts, including erroneous lines", "anchors": ["process.go:Process", "process.go:parserContext.emit"]}
{"id": "C19", "title": "Errors are isolated to their line", "statement": "An erroneous line produces diagnostics on that line only and never changes what other lines are parsed to, other than through `#pragma version` and mode.", "quantifier": "every text and every line replaced by an erroneous one", "why_tests_cant": "all contexts around an error", "anchors": ["process.go:Process", "process.go:parserContext.failAt"]}
{"id": "C20", "title": "Symbols are exactly the label lines", "statement": "The reported symbols are exactly the lines whose first word is a name with a colon behind it, in order, with that name and the word's position.", "quantifier": "every source text", "why_tests_cant": "all texts", "anchors": ["process.go:Process", "symbols.go:labelSymbol"]}
{"id": "C21", "title": "Label references and missing labels", "statement": "The reported references are exactly the label operands of branches, and a missing-label diagnostic is reported for a reference exactly when no line defines that label.", "quantifier": "every source text", "why_tests_cant": "all texts", "anchors": ["process.go:Process", "linter.go:Linter.checkBranches"]}
{"id": "C22", "title": "Version diagnostics", "statement": "With version V in force, an instruction is diagnosed as unavailable exactly when its minimum version exceeds V, and the version suggested for it is then its minimum version.", "quantifier": "every source text and version", "why_tests_cant": "all instruction lists and versions", "anchors": ["process.go:Process", "linter.go:VersionRule"]}
{"id": "C23", "title": "Mode diagnostics", "statement": "An instruction is diagnosed as not available in the current mode exactly when the opcode table says so for that mode.", "quantifier": "every source text and mode", "why_tests_cant": "all opcodes by mode", "anchors": ["process.go:Process"]}
{"id": "C24", "title": "Version pragma", "statement": "`#pragma version N` is accepted exactly for decimal N >= 1 and the version recorded in the parsed program is N.", "quantifier": "every pragma operand", "why_tests_cant": "all numbers", "anchors": ["process.go:parserContext.mustReadPragma", "expr.go:PragmaExpr"]}
{"id": "C25", "title": "Diagnostics point into the document", "statement": "Every diagnostic, symbol and reference lies on an existing line with begin <= end.", "quantifier": "every source text", "why_tests_cant": "all texts", "anchors": ["process.go:Process", "linter.go:Linter"]}
{"id": "C26", "title": "Printing and reparsing", "statement": "Printing a parsed program and processing the output yields the same program.", "quantifier": "every parsed listing", "why_tests_cant": "all programs", "anchors": ["compiler.go:Listing.String", "expr.go"]}
{"id": "C27", "title": "Duplicate label rule", "statement": "The duplicate-label rule reports precisely the definitions of names defined more than once.", "quantifier": "every program", "why_tests_cant": "all programs", "anchors": ["linter.go:DuplicateLabelsRule"]}
{"id": "C28", "title": "Unused label rule", "statement": "The unused-label rule reports precisely the label definitions whose name no instruction refers to.", "quantifier": "every program", "why_tests_cant": "all programs", "anchors": ["linter.go:UnusedLabelsRule"]}
{"id": "C29", "title": "Unreachable code rule", "statement": "Code reported unreachable after an unconditional transfer really cannot be executed, and every instruction between an unconditional transfer and the next label is reported.", "quantifier": "every program and every execution path", "why_tests_cant": "all control-flow paths", "anchors": ["linter.go:OpsAfterUnconditionalBranchRule"]}
{"id": "C30", "title": "Redundant branch rule", "statement": "A branch is reported as just before its target exactly when only lines without effect and no other label are between them; it then transfers control to where fall-through would, if that label is defined once.", "quantifier": "every program", "why_tests_cant": "all programs", "anchors": ["linter.go:BJustBeforeLabelRule"]}
{"id": "C31", "title": "Infinite loop rule", "statement": "A loop reported as infinite cannot be left by any execution, and a backward jump whose body has no exit is reported.", "quantifier": "every program and every execution path", "why_tests_cant": "reachability over all paths", "anchors": ["linter.go:LoopRule", "linter.go:Linter.canEscape"]}
{"id": "C32", "title": "Pragma position rule", "statement": "A version pragma is reported exactly when some instruction or pragma precedes it.", "quantifier": "every program", "why_tests_cant": "all programs", "anchors": ["linter.go:PragmaRule"]}
{"id": "C33", "title": "Compilation keeps order", "statement": "Compiling a tree of expressions lists its instructions in source order, each exactly once.", "quantifier": "every expression tree", "why_tests_cant": "all trees", "anchors": ["compiler.go:Compile", "compiler.go:Program"]}
{"id": "C34", "title": "Optimising preserves behaviour", "statement": "The optimised program takes the same execution paths as the original one.", "quantifier": "every program and every execution path", "why_tests_cant": "all programs and paths", "anchors": ["compiler.go:Listing.Optimize"]}
{"id": "C35", "title": "Optimising keeps branch targets", "statement": "If every branch target of a program is defined then so is every branch target of the optimised program.", "quantifier": "every program", "why_tests_cant": "all programs", "anchors": ["compiler.go:mergeLabels", "compiler.go:removeUnused"]}
{"id": "C36", "title": "The debugger terminates", "statement": "Running a program in the debugger's machine always stops, even for programs with infinite loops.", "quantifier": "every program and every machine state", "why_tests_cant": "non-termination cannot be tested", "anchors": ["vm.go:Vm.Run", "vm.go:Vm.Step"]}
{"id": "C37", "title": "Budget accounting", "statement": "No branch's remaining budget is ever negative, it never grows, and what has been spent is the total cost of the instructions executed.", "quantifier": "every program and every number of steps", "why_tests_cant": "all executions", "anchors": ["vm.go:Vm.Step", "vm.go:VmBranch"]}
{"id": "C38", "title": "Stepping never crashes", "statement": "A failing instruction ends up as a reported error of the machine, never as a crash.", "quantifier": "every machine state reachable by any command sequence", "why_tests_cant": "all states", "anchors": ["vm.go:Vm.Step"]}
{"id": "C39", "title": "Both outcomes of a branch are explored", "statement": "At a conditional branch the machine continues on the fall-through path and adds a branch at the target with the same stack, budget and history; the two then evolve independently.", "quantifier": "every machine state at a conditional branch and every later schedule", "why_tests_cant": "all interleavings of the branches", "anchors": ["vm.go:VmBranch.fork", "expr.go:BnzExpr.Execute", "expr.go:BzExpr.Execute"]}
{"id": "C40", "title": "Calls return", "statement": "A subroutine call followed by its return continues on the line after the call, with the caller's frames intact, on every branch.", "quantifier": "every call nesting", "why_tests_cant": "unbounded nesting", "anchors": ["vm.go:VmBranch.call", "expr.go:RetSubExpr.Execute"]}
{"id": "C41", "title": "Branch identities", "statement": "Branch identifiers are unique, assigned in creation order and never change; switching to an identifier makes exactly that branch current.", "quantifier": "every execution", "why_tests_cant": "all executions", "anchors": ["vm.go:VmBranch.fork", "vm.go:Vm.Switch"]}
{"id": "C42", "title": "Breakpoints", "statement": "Running stops only when the program is finished, fails, or reaches a line with a breakpoint, and it never passes a line with a breakpoint without stopping.", "quantifier": "every program and breakpoint set", "why_tests_cant": "all executions", "anchors": ["vm.go:Vm.Run", "vm.go:Vm.SetBreakpoints", "vm.go:VmBranch.skipNops"]}
{"id": "C43", "title": "Stack manipulation opcodes", "statement": "swap, dup, dup2, dig, cover, uncover, bury, popn and dupn rearrange the stack as the AVM specifies.", "quantifier": "every stack and every immediate", "why_tests_cant": "all depths", "anchors": ["expr.go:SwapExpr.Execute", "expr.go:CoverExpr.Execute", "expr.go:UncoverExpr.Execute", "expr.go:DigExpr.Execute"]}
{"id": "C44", "title": "Stack typing", "statement": "An instruction fails in the debugger exactly when the stack is too short or an operand has the wrong type.", "quantifier": "every instruction and every stack", "why_tests_cant": "all stacks", "anchors": ["vm.go:VmBranch.pop"]}
{"id": "C45", "title": "The debugger follows the program's control flow", "statement": "Every line sequence a branch records is a path of the program's control-flow graph, and instruction pointers always lie on instructions or on exit.", "quantifier": "every program and execution", "why_tests_cant": "all executions", "anchors": ["vm.go:Vm.Step", "vm.go:VmBranch.Trace"]}
{"id": "C46", "title": "Documents hold the last text", "statement": "After any sequence of open/change/close messages the text of a document is the last one sent, and every query is answered from the analysis of exactly that text.", "quantifier": "every message sequence over any number of documents", "why_tests_cant": "unbounded histories", "anchors": ["lsp/lsp.go:tealDoc", "lsp/lsp.go:lsp.handle"]}
{"id": "C47", "title": "Shutdown protocol", "statement": "After a shutdown request every request is refused and has no effect, and exit reports success exactly when shutdown was received.", "quantifier": "every message sequence", "why_tests_cant": "unbounded histories", "anchors": ["lsp/lsp.go:lsp.handle"]}
{"id": "C48", "title": "Every request is answered once", "statement": "Each request gets exactly one response carrying its id, notifications get none, and ids of the server's own requests never repeat.", "quantifier": "every message sequence", "why_tests_cant": "unbounded histories", "anchors": ["lsp/lsp.go:lsp.handle", "lsp/lsp.go:lsp.request"]}
{"id": "C49", "title": "Message framing", "statement": "Writing messages and reading the byte stream back gives the same messages, however many and whatever their content.", "quantifier": "every sequence of message bodies", "why_tests_cant": "unbounded streams", "anchors": ["lsp/lsp.go:lsp.write", "lsp/lsp.go:lsp.Run"]}
{"id": "C50", "title": "Rename", "statement": "The edits for renaming a label replace exactly its definitions and its references, keep the colon, never overlap, and touch nothing else.", "quantifier": "every text, label position and new name", "why_tests_cant": "all texts", "anchors": ["lsp/lsp.go:lspHandleRename", "process.go:ProcessResult.SymbolsForRefWithin"]}
{"id": "C51", "title": "Debug adapter variable references", "statement": "The reference handed out for a branch's scope resolves back to the same scope of the same branch, for every branch.", "quantifier": "every branch id and scope", "why_tests_cant": "unbounded ids", "anchors": ["dbg/dbg.go:dbg.scopes", "dbg/dbg.go:dbg.variables"]}
{"id": "C52", "title": "Debug adapter sequence numbers", "statement": "Sequence numbers of messages sent by the debug adapter strictly increase.", "quantifier": "every message sequence", "why_tests_cant": "unbounded histories", "anchors": ["dbg/dbg.go:dbg.reply", "dbg/dbg.go:dbg.notify"]}
{"id": "C53", "title": "SARIF report", "statement": "The SARIF report contains one artifact per scanned file and one result per diagnostic, in order, whose location index identifies its artifact and whose line and column are the diagnostic's, one based.", "quantifier": "every set of scanned files", "why_tests_cant": "all sets of files", "anchors": ["cmd/tealsarif/main.go:run"]}
{"id": "C54", "title": "Immediate notes", "statement": "Parsing a note on immediates never runs off the end of the note and never loops, whatever the note; a note made of immediates (a field, a length with bytes, a count with an array) is read to one argument per immediate, in order, as written, with arrays flagged and branch offsets shown as labels.", "quantifier": "every note string", "why_tests_cant": "all strings", "anchors": ["langspec.go:parseImmArgs", "langspec.go:immLexer.tokenize"]}
{"id": "C55", "title": "Operand grammar", "statement": "A line made of an opcode and operands is accepted exactly when the operands have the number and form the opcode's reference gives, and the instruction recorded then has those operands.", "quantifier": "every opcode, every list of operand words, every program version", "why_tests_cant": "all operand lists of all opcodes", "anchors": ["process.go:Ops", "process.go:parserContext.Parse*", "process.go:Process"]}
{"id": "C56", "title": "The adapter debugs the file launched", "statement": "At every point of every session the debug adapter's machine is running the program of the file launched last, in a state the machine can reach, and there is no machine before the first launch.", "quantifier": "every sequence of debug requests", "why_tests_cant": "unbounded histories", "anchors": ["dbg/dbg.go:dbg.handle"]}
{"id": "C57", "title": "Debug requests are answered once", "statement": "Every known debug request that is handled gets exactly one response, which names the request and comes first; no request gets two.", "quantifier": "every state of every session, every request", "why_tests_cant": "unbounded histories", "anchors": ["dbg/dbg.go:dbg.handle", "dbg/dbg.go:dbg.reply"]}
{"id": "C58", "title": "The adapter survives requests", "statement": "Handling a debug request never crashes the adapter.", "quantifier": "every state of every session, every request", "why_tests_cant": "all requests in all states", "anchors": ["dbg/dbg.go:dbg.handle"]}
{"id": "C59", "title": "Stack traces", "statement": "The stack trace of a thread lists where the branch is and each active call, innermost first, on the lines as the client counts them, and the total says how many frames there are.", "quantifier": "every state of every session, every branch", "why_tests_cant": "unbounded call depth", "anchors": ["dbg/dbg.go:dbg.handle", "vm.go:VmBranch.call"]}
{"id": "C60", "title": "Breakpoints asked for", "statement": "Setting breakpoints answers with the lines asked for, in order, verified exactly where there is an instruction, and the machine then has exactly the verified ones.", "quantifier": "every program, every list of lines", "why_tests_cant": "all lists of lines", "anchors": ["dbg/dbg.go:dbg.handle", "vm.go:Vm.SetBreakpoints"]}
{"id": "C61", "title": "Stop events tell where the program stopped", "statement": "After continuing, the stop event reports an error exactly if an instruction failed, else a thread that is at the reported breakpoints, else that all branches are done.", "quantifier": "every state of every session", "why_tests_cant": "unbounded executions", "anchors": ["dbg/dbg.go:dbg.handle", "vm.go:Vm.Run"]}
{"id": "C62", "title": "Frame access", "statement": "In a subroutine, frame_dig and frame_bury access the slot counted from the height of the stack at the call, whatever was called and returned from since.", "quantifier": "every program, every execution, every frame index", "why_tests_cant": "unbounded histories and stacks", "anchors": ["expr.go:FrameDigExpr.Execute", "expr.go:FrameBuryExpr.Execute", "vm.go:VmBranch.call"]}
{"id": "C63", "title": "Returning from a subroutine with proto", "statement": "retsub in a subroutine that began with proto A R leaves the results in place of the arguments and nothing else of the subroutine's values.", "quantifier": "every program and execution", "why_tests_cant": "unbounded histories and stacks", "anchors": ["expr.go:RetSubExpr.Execute", "vm.go:VmBranch.prepare"]}
{"id": "C64", "title": "Stepping a thread", "statement": "Stepping the thread named executes one instruction on that branch, or reports why not, and changes no other branch; the threads listed are exactly the branches.", "quantifier": "every state of every session, every branch", "why_tests_cant": "unbounded histories", "anchors": ["dbg/dbg.go:dbg.handle", "vm.go:Vm.Switch", "vm.go:Vm.Step"]}
{"id": "C65", "title": "Lines as the client counts them", "statement": "After a client's one initialize request, lines and columns are counted from zero exactly if that request says so, in all later requests and answers.", "quantifier": "every sequence of debug requests", "why_tests_cant": "unbounded histories", "anchors": ["dbg/dbg.go:dbg.handle"]}
{"id": "C66", "title": "Launching stops on entry", "statement": "Launching a file is answered, names the process and reports a stop on entry, on the first instruction, with nothing executed and no breakpoints; with no thread if there is no instruction.", "quantifier": "every state, every program", "why_tests_cant": "all programs", "anchors": ["dbg/dbg.go:dbg.handle", "vm.go:NewVm"]}
{"id": "C67", "title": "Go to definition", "statement": "Asking for the definition at a position inside a label reference answers the places of all labels with that name, in the order of the text; anywhere else it answers none.", "quantifier": "every session, every open text, every position", "why_tests_cant": "all texts and positions", "anchors": ["lsp/lsp.go:lsp.handle", "process.go:ProcessResult.SymbolsForRefWithin"]}
{"id": "C68", "title": "Highlighting a label", "statement": "Asking for highlights at a position on a label or a reference answers every place the label is defined and every place it is referred to, each once, and nothing else.", "quantifier": "every session, every open text, every position", "why_tests_cant": "all texts and positions", "anchors": ["lsp/lsp.go:lsp.handle", "process.go:ProcessResult.SymOrRefAt"]}
{"id": "C69", "title": "Document symbols", "statement": "The symbols answered for a document are exactly its label lines, in order, with the name before the colon and the place of the word.", "quantifier": "every session, every open text", "why_tests_cant": "all texts", "anchors": ["lsp/lsp.go:lsp.handle", "process.go:Process"]}
{"id": "C70", "title": "Reference counts over labels", "statement": "With the setting on, every label that some instruction operand names carries one code lens, on its line, that says how many do; with the setting off there are none.", "quantifier": "every session and setting history, every open text", "why_tests_cant": "all texts and histories", "anchors": ["lsp/lsp.go:lsp.handle", "lsp/lsp.go:lsp.doReadConfig"]}
{"id": "C71", "title": "Layout does not matter", "statement": "Two texts with the same words on the same lines, however they are spaced and commented, are read to the same listing and version, with the same labels and references, the same findings of the linter on the same lines, and either both crash or none.", "quantifier": "every two source texts", "why_tests_cant": "all pairs of texts", "anchors": ["process.go:Process", "lexer.go:Lexer.readTokens", "linter.go:Linter.Lint"]}
{"id": "C72", "title": "A well-formed program is read as written", "statement": "A text whose lines are blank, labels, version directives or instructions with operands as the language's grammar has them is read without parse errors, to exactly the instructions written, one per line, each under the version in force at its line.", "quantifier": "every well-formed program text", "why_tests_cant": "all programs of all lengths and layouts", "anchors": ["process.go:Process", "process.go:ops", "parser.go"]}
{"id": "C73", "title": "String literals in programs", "statement": "A `byte` line with a string literal is read as the bytes the literal denotes, and every byte string has such a line.", "quantifier": "every literal body and every byte string", "why_tests_cant": "all byte strings, including quotes, backslashes and non-ASCII bytes", "anchors": ["lexer.go:Lexer.readString", "go_algorand.go:parseStringLiteral", "process.go:parserContext.parseBytes"]}
{"id": "C74", "title": "Renaming keeps the program", "statement": "Applying the edits of a rename to the text gives a text that is read to the same program with the label renamed: the same instructions in the same order, under the same version, with the new name wherever the old one was.", "quantifier": "every session, every open text, every label position, every new name that is a plain word", "why_tests_cant": "all texts and names", "anchors": ["lsp/lsp.go:lsp.handle", "process.go:Process"]}
{"id": "C75", "title": "Inlay hints are right", "statement": "Every inlay hint stands behind a word that meets the asked range; it is either the name of a field written there as a number, or the text of bytes written there in hex, all printable. Each of the two kinds appears only if it is switched on, and no such word in the range lacks its hint.", "quantifier": "every session, every open text, every range", "why_tests_cant": "all texts and ranges", "anchors": ["lsp/lsp.go:lsp.handle", "process.go:ProcessResult.InlayHints", "process.go:ProcessResult.ArgFieldName"]}
{"id": "C76", "title": "Fixes for values are offered where they apply", "statement": "The quick fixes that replace a value are offered exactly for words that meet the asked range and are a field's number, with the field's name as replacement, or printable bytes in hex, with the string as replacement; each replaces just that word.", "quantifier": "every session, every open text, every range", "why_tests_cant": "all texts and ranges", "anchors": ["lsp/lsp.go:lsp.handle", "process.go:ProcessResult.InlayHints"]}
{"id": "C77", "title": "Writing a field's name for its number keeps the program", "statement": "When the fix that replaces a field number by its name is executed and the client applies the edit, the text is read to the same program under the same version.", "quantifier": "every session, every open text, every field number in it", "why_tests_cant": "all texts, opcodes and fields", "anchors": ["lsp/lsp.go:lsp.handle", "process.go:ProcessResult.InlayHints", "process.go:Process"]}
{"id": "C78", "title": "Writing hex bytes as a string keeps the program", "statement": "When the fix that replaces bytes in hex by a string is executed and the client applies the edit, the text is read to the same program under the same version.", "quantifier": "every session, every open text, every hex word in it", "why_tests_cant": "all texts and byte strings", "anchors": ["lsp/lsp.go:lsp.handle", "process.go:ProcessResult.InlayHints", "process.go:Process"]}
{"id": "C79", "title": "Fixes for lines, labels and versions are offered where they apply", "statement": "The fix that removes a line is offered exactly for the lines of the asked range that hold a label nothing refers to or a jump to the label right behind it; the fix that creates a label exactly for missing labels that an operand in the range refers to; the fix that changes the version exactly for the versions that instructions in the range came with and that are not in force there. Nothing offers to remove a label.", "quantifier": "every session, every open text, every range", "why_tests_cant": "all texts and ranges", "anchors": ["lsp/lsp.go:lsp.handle", "process.go:Process", "linter.go:Linter.Lint"]}
{"id": "C80", "title": "Removing a redundant line keeps the program", "statement": "When the fix that removes a line is executed and the client applies the edit, the text is read to the program without that line, under the same version, and that program takes the same paths.", "quantifier": "every session, every open text, every line that is offered for removal", "why_tests_cant": "all texts, line endings and control flow", "anchors": ["lsp/lsp.go:lsp.handle", "process.go:Process", "linter.go:Linter.Lint"]}
{"id": "C81", "title": "Creating a missing label defines it", "statement": "When the fix that creates a label is executed and the client applies the edit, the text defines the label, and it is read to the old program followed by the label, under the same version.", "quantifier": "every session, every open text, every missing label", "why_tests_cant": "all texts, with or without a line break at their end", "anchors": ["lsp/lsp.go:lsp.handle", "process.go:Process"]}
{"id": "C82", "title": "Changing the version puts it in force", "statement": "When the fix that changes the version is executed and the client applies the edit, the new version is in force on the lines behind the version pragma, or on all lines if there was none; all other lines keep their words; an instruction that needed this version needs none any more.", "quantifier": "every session, every open text, every version from 1 to 2^64-1", "why_tests_cant": "all texts, and all places of version pragmas in them", "anchors": ["lsp/lsp.go:lsp.handle", "process.go:Process", "process.go:opPragma"]}
{"id": "C83", "title": "Preparing a rename shows the label that will be renamed", "statement": "Preparing a rename answers that there is nothing to rename exactly if the cursor is not on a label of the text, be it a definition or a reference; otherwise it answers with the name of a label the cursor is on and the place of that word.", "quantifier": "every session, every open text, every position", "why_tests_cant": "all texts and positions", "anchors": ["lsp/lsp.go:lsp.handle", "process.go:ProcessResult.SymbolsWithin", "process.go:ProcessResult.SymbolRefsWithin"]}
{"id": "C84", "title": "Formatting replaces the whole text by the formatted one", "statement": "A formatting request is answered with one edit, and a client that applies it has the text the formatter makes of the document.", "quantifier": "every session, every open text, every formatter", "why_tests_cant": "all texts and line endings", "anchors": ["lsp/lsp.go:lsp.handle"]}
{"id": "C85", "title": "Completion offers exactly what can stand at the cursor", "statement": "At the place of an opcode, completion offers exactly the opcodes that the version has and that begin with what is written; behind the opcode it offers exactly what can stand as the operand at the cursor: the labels of the text for jumps, the named integers for `int`, and the fields the version has, each with its number.", "quantifier": "every session, every open text, every position, every order in which maps are visited", "why_tests_cant": "all texts, opcodes, positions and versions", "anchors": ["lsp/lsp.go:lsp.handle", "process.go:ProcessResult.ArgAt", "process.go:ProcessResult.ArgVals"]}
{"id": "C86", "title": "Hovering shows the documentation of what is under the cursor", "statement": "Over an opcode its description is shown; over an operand that names or numbers a field, the name and number of that field; elsewhere nothing.", "quantifier": "every session, every open text, every position", "why_tests_cant": "all texts and positions", "anchors": ["lsp/lsp.go:lsp.handle", "process.go:ProcessResult.DocAt"]}
{"id": "C87", "title": "Signature help points at the operand under the cursor", "statement": "On the line of an instruction the signature of its opcode is shown, with the operand under the cursor, or the one that comes next, as the active one; on other lines nothing.", "quantifier": "every session, every open text, every position", "why_tests_cant": "all texts and positions", "anchors": ["lsp/lsp.go:lsp.handle", "process.go:ProcessResult.ArgAt"]}
{"id": "C88", "title": "Semantic highlighting covers exactly the words and comments that have a meaning, with the right kind", "statement": "For every open text and every request for its semantic tokens, the list of numbers in the answer decodes (by the protocol's delta encoding) to tokens in order of position, each of which covers exactly one word or comment of the text and gives it its kind: comments as comments, label definitions as methods, `#pragma` and `version` as macros, opcodes and names of encodings as keywords, texts, labels and field names among the operands as strings, and other operands and version numbers as numbers. Every such word and comment is covered, an operand if its line has no syntax error. No two tokens of the answer overlap.", "quantifier": "all server sessions, all texts shorter than 2^32 bytes, all sorting functions that sort by line and column", "why_tests_cant": "The kind of an operand depends on the opcode, on the position and on field tables; the answer is built from eight separate lists collected by forty different parse functions and then delta-encoded.", "anchors": ["lsp/lsp.go:lsp.handle", "process.go:Process", "semantics.go:SemanticTokens.Encode"]}
{"id": "C89", "title": "What the linter says about a text is true of its lines", "statement": "For every text whose lines make a program (one instruction of the reference per line), Process reports, on exactly the right lines: labels defined on another line too, labels nothing refers to, references to labels that are not there, jumps to the label that comes next anyway, and version pragmas behind an instruction or pragma. A line reported as unreachable is executed by no path, and the lines between an unconditional transfer and the next label are reported; a loop reported as infinite is left by no path, and loops without a way out are reported. Each of these diagnostics covers the words of its line.", "quantifier": "all texts that are programs, all orders of map iteration, all executions", "why_tests_cant": "It combines lexing, line counting, parsing and the linter, over all texts and all control-flow paths.", "anchors": ["process.go:Process", "linter.go:Linter.Lint"]}
{"id": "C90", "title": "Looking does not run the program", "statement": "Asking the debug adapter for threads, variables, scopes, a stack trace or a pause, and sending anything it does not know, leaves the debugged program exactly where it is; setting breakpoints changes the breakpoints and nothing else. Pausing is answered and followed by one stop event that gives the reason and names the selected thread. A command the adapter does not know gets no message.", "quantifier": "every state of the adapter, every request and sequence number", "why_tests_cant": "the state of the adapter depends on an unbounded history; a test can compare the visible state only after sessions it knows", "anchors": ["dbg/dbg.go:dbg.handle", "vm.go:Vm.SetBreakpoints"]}
{"id": "C91", "title": "No errors exactly for valid programs", "statement": "Processing a text reports no diagnostic of severity error exactly if the text is a valid program: every string is closed, every line is blank, a label, a version pragma or an instruction of the reference with its operands, every opcode is available in the version and mode in force on its line, every label referred to is defined, no label is defined twice, the version pragma comes before all instructions, and every loop closed by a jump back can be left.", "quantifier": "every text, every order of map iteration", "why_tests_cant": "an equivalence over all texts; unit tests check a few programs that are accepted and a few that are rejected", "anchors": ["process.go:Process", "linter.go:Linter.Lint"]}
{"id": "C92", "title": "The diagnostics an editor gets", "statement": "When an editor asks for the diagnostics of an open document, it gets what the analysis of the text it sent last finds: every finding, in order, with its place, as an error if it makes the program invalid and as a warning otherwise. So the editor shows no error exactly if the text is a valid program, and every range it is told to underline is on one line of the text and begins and ends at places that exist.", "quantifier": "every session, every text of the document, every order of map iteration", "why_tests_cant": "the answer depends on everything sent before (the results are cached), and on all texts; tests ask for the diagnostics of a few texts", "anchors": ["lsp/lsp.go:lsp.handle", "lsp/lsp.go:lsp.doDiagnostic", "diag.go:DiagnosticSeverity", "process.go:Process"]}
{"id": "C93", "title": "Programs built in Go print as what was asked for", "statement": "A program put together with the functions of the package (Label, Int, Txn, Cover, Plus, Block, ...), from single instructions, slices and programs inside programs, is printed as a TEAL text that is read without errors to the instructions asked for, in this order, and to the version of its last version pragma.", "quantifier": "every finite tree of calls, with all operands", "why_tests_cant": "the text must be right for every combination of calls and every string, label and number in them; tests print a few programs and never read them again", "anchors": ["compiler.go:Program.String", "compiler.go:Listing.String", "compiler.go:compiler.compile", "expr.go:Label", "expr.go:StringBytes", "expr.go:Cover", "expr.go:Plus", "expr.go:Block", "expr.go:FuncExpr.Call"]}
{"id": "C94", "title": "The language specification agrees with the rest of the package", "statement": "The language specification the package exports describes the language its other parts implement: every opcode in it can be written, with as many operands as its row has immediates; the fields a row lists are exactly the field names accepted at its version; executing the instruction in the debugger takes and leaves what the row lists under Args and Returns, and the value of a field has the type the row gives for it.", "quantifier": "every row of the language specification, every program text with a line that uses its opcode, every session of the debugger that executes it", "why_tests_cant": "two independent tables of 173 opcodes and over a hundred fields have to agree for every text and every state of the machine", "anchors": ["langspec.go:BuiltInLangSpec", "langspec.go:LangOp", "langspec.json", "process.go:Process", "vm.go:Vm.Step", "go_algorand.go:txnFieldSpecs"]}
{"id": "C95", "title": "The debugger's texts show what is known of each value", "statement": "Asking for the variables of a branch is answered with one text per stack slot and per scratch slot that has been stored to, named by the number of the slot, and with the budget in decimal. The texts change with each executed instruction as the instruction says: a constant is shown as that constant, moved values keep their texts, a stored value shows the same text in its slot, a loaded value shows the text of its slot, hashes and signature checks show what they were computed from, and other results show their type. Different constants are shown differently.", "quantifier": "every session with the debugger, every state and branch it reaches, every executed instruction, every stack and scratch content", "why_tests_cant": "the texts are built from values nested to any depth, and what a slot shows depends on the whole history of the branch", "anchors": ["vm.go:VmValue.String", "vm.go:vmOpSource.String", "vm.go:vmUint64Const.String", "vm.go:vmByteConst.String", "vm.go:vmSignatureValue.String", "vm.go:Vm.Step", "dbg/dbg.go:dbg.variables"]}
{"id": "C96", "title": "What the debugger displays is true of real runs", "statement": "If a real run of the program executes the instructions of a branch, then in every state of the session the debugger displays as many stack slots as the real stack has, and what the text of a stack or scratch slot says is true of the real value in that slot: `uint64: 5` is 5, `bytes: b64 ...` is that byte string, `uint64` is some number, `bytes: sha256(x)` is the hash of a value of which x is true, `any: x` is a value of which x is true. The displayed trace is what the run executed.", "quantifier": "every program, every interpretation of the hash and signature functions, every session with the debugger, every branch, and every real run along the branch", "why_tests_cant": "soundness of an abstract interpreter: a relation between two machines that must hold along every execution, whatever the values that are not known statically", "anchors": ["vm.go:Vm.Step", "vm.go:VmBranch", "vm.go:VmValue.String", "expr.go:Execute", "dbg/dbg.go:dbg.variables"]}
{"id": "C97", "title": "An error the debugger shows is an error of the real run", "statement": "If the debugger stops with an error when it executes an instruction of a branch, then a real run that has executed the instructions of that branch cannot execute this instruction either.", "quantifier": "every program, every session, every branch, every real run along the branch, every next instruction", "why_tests_cant": "completeness of an abstract interpreter: it must be able to do whatever the real machine can, in every state both can reach together", "anchors": ["vm.go:Vm.Step", "vm.go:VmBranch.pop", "vm.go:VmBranch.peek", "vm.go:VmBranch.exit"]}
{"id": "C98", "title": "The debugger can follow every real run", "statement": "For every real run of a program within the budget, the user can drive the debugger, by steps and by choosing branches, to a state in which a branch has executed exactly the instructions of the run, stands where the run stands and has at least the budget the run has left; no error is shown on the way.", "quantifier": "every program with unique labels, every real run, with any number of branches, calls and loops, within the budget", "why_tests_cant": "a statement about the existence of a session for each execution of the real machine, by induction on executions of any length", "anchors": ["vm.go:Vm.Step", "vm.go:Vm.Run", "vm.go:Vm.skipNops", "vm.go:Vm.Switch"]}
{"id": "C99", "title": "The linter and the debugger agree", "statement": "In no session with the debugger is a branch ever at a line the linter reports as unreachable. A branch inside a loop the linter reports as infinite never leaves it, whatever the user does, and executes nothing that ends the program. Executing a branch the linter reports as redundant leads to where leaving it out would, and changes nothing else.", "quantifier": "every program, every session and continuation of it, every branch, every line reported", "why_tests_cant": "relates a static analysis to all executions of another component", "anchors": ["linter.go:Linter", "linter.go:UnreachableCodeError", "linter.go:LoopRule", "linter.go:Linter.canEscape", "vm.go:Vm.Step", "vm.go:Vm.skipNops"]}
{"id": "C100", "title": "JSON texts are read and written as the standard says", "statement": "Every JSON text nested at most 10000 deep is read as the value it stands for, whatever white space and escapes it uses. Only JSON texts are read, except that stray bytes and halves of surrogate pairs in strings stand for the replacement character. The strings that are read are UTF-8. What is written is a JSON text of the value, with replacement characters for what is not UTF-8.", "quantifier": "every byte string, every JSON value", "why_tests_cant": "a statement about every text of a grammar and every value, of any size", "anchors": ["lsp/lsp.go:lsp.write", "lsp/lsp.go:readInto", "lsp/lsp.go:lsp.Run", "dbg/dbg.go"]}
{"id": "C101", "title": "Requests of the protocol are understood however they are written", "statement": "A JSON text of a request or notification of the language server protocol is understood as what it asks for and its id is kept, whatever the order of the members, the white space and the escapes are and whatever other members there are.", "quantifier": "every method and its parameters, every JSON text of such a message", "why_tests_cant": "the order of members, unknown members and spellings are unbounded; decoding goes member by member and the last one wins", "anchors": ["lsp/lsp.go:read", "lsp/lsp.go:readInto", "lsp/lsp.go:jsonRpcHeader", "lsp/lsp.go:lsp.handle", "lsp/lsp.go:lspRequest"]}
{"id": "C102", "title": "The server does what the frames of its input ask for, in order", "statement": "For an input of frames, with any header fields, each holding a JSON text of a message or something that is not JSON, the session is the one in which the requests and notifications are handled in order, with their ids; responses to the server's own requests and what is not JSON have no effect.", "quantifier": "every sequence of frames, every spelling of their messages", "why_tests_cant": "end to end from bytes to sessions of any length", "anchors": ["lsp/lsp.go:lsp.Run", "lsp/lsp.go:lsp.handle", "lsp/lsp.go:readInto"]}
{"id": "C103", "title": "What the server writes can be read by the client", "statement": "Whatever frames with messages of the protocol, responses included, or with something that is not JSON, the server is given, its output is a stream of frames, one for each message it sends; each holds a JSON text of that message in the form the protocol has for it, and every response carries the id of one of the requests.", "quantifier": "every sequence of frames, every spelling of their messages, every document and program in them", "why_tests_cant": "end to end from bytes to bytes, over sessions of any length and documents of any content (bytes that would not be UTF-8, numbers out of range, characters that need escapes)", "anchors": ["lsp/lsp.go:lsp.write", "lsp/lsp.go:lsp.reply", "lsp/lsp.go:lsp.request", "lsp/lsp.go:lspResponse", "lsp/lsp.go:lsp.handle"]}
{"id": "C104", "title": "Executing an offered command does what was offered", "statement": "If the client sends back the command of a code action that the server offered, in a workspace/executeCommand request, the server understands it as the same command with the same arguments.", "quantifier": "every command of a code action, every JSON text of the request", "why_tests_cant": "a round trip through two encodings for every document, uri and spelling", "anchors": ["lsp/lsp.go:lsp.handle", "lsp/lsp.go:lspCommand", "lsp/lsp.go:tealCreateLabelCommandArgs"]}
{"id": "C105", "title": "Positions and edits mean the same to editors that count UTF-16 code units", "statement": "The protocol counts columns in UTF-16 code units. A position the server gets or sends denotes the same place in the text for client and server, and the edits it sends give the text they are meant to give.", "quantifier": "every text, every position, every list of edits", "why_tests_cant": "texts are unbounded and any character may stand on any line", "anchors": ["lsp/lsp.go:lsp.handle", "doc.go:Process", "lexer.go:Lexer.Scan"]}
{"id": "C106", "title": "The debug adapter understands requests, however they are spelled", "statement": "A JSON text of a request of the debug adapter protocol is understood as the command with the arguments it carries, whatever the order of the members, the white space and the escapes are and whatever other members there are.", "quantifier": "every request of the protocol, every JSON text of it nested at most 10000 deep", "why_tests_cant": "JSON texts of a request are infinitely many", "anchors": ["dbg/dbg.go:dbg.handle", "dbg/dbg.go:Run", "dbg/dbg.go:dapSetBreakpointsRequest", "dbg/dbg.go:dapHeader"]}
{"id": "C107", "title": "A debugging session works from bytes to bytes", "statement": "Whatever frames with requests of the protocol, with events or responses, or with something that is not JSON, the debug adapter is given, it does what the requests ask for, in order; its output is a stream of frames, one for each message it sends; each holds a JSON text of that message in the form the protocol has for it, and every response carries the number and the command of one of the requests. And whatever the requests can lead to, the adapter can do when it gets them as frames.", "quantifier": "every sequence of frames, every spelling of their requests, every program launched, every schedule of file contents", "why_tests_cant": "end to end from bytes to bytes, over sessions of any length and programs of any content (bytes that are not UTF-8 included)", "anchors": ["dbg/dbg.go:Run", "dbg/dbg.go:dbg.handle", "dbg/dbg.go:dbg.reply", "dbg/dbg.go:dbg.notify", "dbg/dbg.go:dbg.write", "dbg/dbg.go:dapResponse", "dbg/dbg.go:dapEvent"]}
{"id": "C108", "title": "The scanner prints a report that SARIF tools can read", "statement": "When a scan succeeds, what is printed is one JSON text, followed by a line feed, of a SARIF 2.1.0 log with one run: its rules, the uri of every scanned file, and one result for every finding with its rule, level, uri and position and a message that tells what was found; each rule carries the description of its check. Indenting does not change what a JSON text stands for.", "quantifier": "every directory tree, every content of the files in it, every message text", "why_tests_cant": "files may hold any bytes and messages quote them; the text passes through a scanner that inserts white space", "anchors": ["cmd/tealsarif/main.go:run", "internal/sarif/sarif.go:Results", "internal/sarif/sarif.go:Result", "internal/sarif/sarif.go:Run"]}
{"id": "C109", "title": "The tools do what their command lines say", "statement": "Options are understood in all spellings (-name value, -name=value, with one dash or two), in any order, the last one of a name counts, and words behind the first word that is no option are ignored. tealsp without options serves the language server protocol on standard input and output, tealsp dbg the debug adapter protocol; a connection is made and a trace file created only if asked for. The language server ends with status 0 if shutdown came before exit or if its input ends, with 1 if it was told to exit without shutdown. The scanner prints its report and ends with status 0 exactly if the scan of the path given succeeds.", "quantifier": "every command line, every answer of the operating system, every input of frames", "why_tests_cant": "command lines and inputs are unbounded lists of arbitrary words", "anchors": ["cmd/tealsp/main.go:main", "cmd/tealsp/main.go:runLsp", "cmd/tealsp/main.go:runDbg", "cmd/tealdbg/main.go:main", "cmd/tealdbg/main.go:run", "cmd/tealsarif/main.go:main", "lsp/lsp.go:lsp.Run"]}
{"id": "C110", "title": "Messages say what is wrong", "statement": "The message of a diagnostic tells what kind of problem it is and which: no two different problems have the same message, except problems with operands. An editor is told 'unknown opcode: w' for a line exactly if the line begins with the word w and w is no opcode of the reference, no label and no pragma; the same for unknown pragmas. A message that quotes a label quotes the label that is duplicate, unused or missing on that line; a message about versions gives, in decimal, the version the instruction needs and the version in force; a message about modes names the mode in force. Messages about unreachable code and infinite loops are true of all executions of the program.", "quantifier": "every session, text, line, label, word, version and mode", "why_tests_cant": "the texts, and the words and numbers that the messages quote, are unbounded", "anchors": ["linter.go:DuplicateLabelError", "linter.go:UnusedLabelError", "linter.go:MissingLabelError", "process.go:opPragma", "process.go:Process", "lsp/lsp.go:lsp.doDiagnostic"]}
{"id": "C111", "title": "Fixes do what their titles say", "statement": "The title of each fix that an editor offers names what its command changes: the unused label whose line is removed, a dispensable branch, the label that is created, the name of the field or the text that replaces a value, the version. The edit the server then asks for carries a label that says the same.", "quantifier": "every session, text and range, every command", "why_tests_cant": "texts, labels and histories are unbounded", "anchors": ["lsp/lsp.go:lsp.handle", "linter.go:RedundantLabelLine.String", "linter.go:RedundantBLine.String"]}
{"id": "C112", "title": "The server announces what its settings say", "statement": "initialize is answered with the capabilities of the server. Semantic tokens are announced exactly if the last option given for them, in this or an earlier initialize request, turns them on or none was given; inlay hints exactly if one of their two kinds is on in this sense. The commands announced are those the server executes.", "quantifier": "every history of messages before shutdown, every combination of options", "why_tests_cant": "the settings depend on an unbounded history of requests", "anchors": ["lsp/lsp.go:lsp.handle", "lsp/lsp.go:lspInitializeRequestParams"]}
{"id": "C113", "title": "Signatures describe the syntax of the instruction", "statement": "The signature shown for an opcode, by signature help and, in short form, beside a completion, lists its operands by name and kind, in order, marks lists, and puts the operands that can be left out in brackets; and what it allows is exactly what the reference of the language allows: words are operands of an instruction if and only if they fit the description (an index is for fields that are arrays). Beside a completion the version is shown that introduced the opcode for applications.", "quantifier": "every opcode, every list of operand words, every program version", "why_tests_cant": "the words an instruction can have are unboundedly many; the signatures are made by running the parse functions on a recording context", "anchors": ["process.go:Ops", "process.go:docContext", "process.go:NewOpArgType.String", "lsp/lsp.go:lsp.handle"]}
{"id": "C114", "title": "Accepting the completion of an opcode inserts an instruction to fill in", "statement": "Accepting the completion of an opcode, as the protocol expands snippets, inserts the name of the opcode and, behind a space each, one tab stop for each operand its signature lists, in order; without operands just the name. Whatever the user puts into the stops, nothing else is inserted, and an item inserts one text only.", "quantifier": "every opcode, every text put into the tab stops", "why_tests_cant": "the texts put into the stops are arbitrary", "anchors": ["lsp/lsp.go:lsp.handle", "process.go:Ops"]}
{"id": "C115", "title": "The snippets insert the structures they are named after", "statement": "Accepting the completion soc and giving its labels different names inserts, in a program of a version that has the opcodes, lines without errors that are a switch on OnCompletion: the label in place i is the target for the value i, for which its name in lower case is proposed, each part but the last goes on at the common end, and that follows the last. Accepting func and giving a name and two numbers inserts a subroutine that declares that many arguments and results, has no body yet and returns. Both are offered only where they can be used.", "quantifier": "all names, numbers and versions put in", "why_tests_cant": "the names are arbitrary; the snippet is made by a loop with indices of tab stops", "anchors": ["lsp/lsp.go:lsp.handle"]}
{"id": "C116", "title": "The small tools print everything they find, and what they print can be read back", "statement": "For a readable file the token tool prints one line per token, in order, with its line, columns and text, and finally says whether a string is not closed; files with the same output have the same tokens up to the spelling of line ends, and so are the same program. The lint tool prints one line per diagnostic with its place, severity and message; it prints nothing exactly if nothing is reported, and in a tidy text it reports no error exactly if the text is a valid program. The interpreter tool runs the file and ends with status 0. Each ends with status 2 if the file cannot be read.", "quantifier": "all files, command lines, environments and, for reading back, pairs of files", "why_tests_cant": "texts of tokens are arbitrary and may contain line breaks and whole lines that look like output; running a program may take any number of steps", "anchors": ["debug/tokenize/main.go:run", "debug/lint/main.go:main", "debug/interpret/main.go:run"]}
{"id": "C117", "title": "What the server announces it answers, in the form the protocol gives the method", "statement": "Once a client has received the capabilities, every well-formed request of a method that they announce, by the table of the protocol, about an open document is answered at once with one response, whose result has the form that the protocol gives the method. Conversely every request about a document that the server knows is announced, unless the settings turn it off.", "quantifier": "all sessions, settings, announced methods, documents and parameters of the requests", "why_tests_cant": "the table of capabilities and the switch over the methods are in different places, and the answers depend on the whole session", "anchors": ["lsp/lsp.go:lspServerCapabilities", "lsp/lsp.go:handleRequest"]}
{"id": "C118", "title": "The chain scanner tells about every program", "statement": "For the blocks that are delivered the scanner prints, in order, a line for each block and for each transaction that deploys a program its length and one line for each diagnostic, with the round of the block, the number of the transaction, the line and the message; if the node cannot disassemble a program it says so and goes on. Nothing but the length is printed for a program exactly if nothing is found in it.", "quantifier": "all lists of blocks, transactions, answers of the node and environments", "why_tests_cant": "there are arbitrarily many blocks and programs, and a failure in one must not hide another", "anchors": ["debug/scan/main.go:run"]}
{"id": "C119", "title": "The translator prints a program for a Go file", "statement": "For a Go file that can be checked the translator prints the TEAL program of its functions.", "quantifier": "all packages, orders of their members and translations of functions", "why_tests_cant": "the members of a package are iterated in random order and the translation of a function is arbitrary", "anchors": ["debug/translate/main.go:run", "compiler.go:compile"]}
{"id": "C120", "title": "What is said about operands", "statement": "For an instruction whose operands are wrong a diagnostic is reported at the first word that is not an operand as the signature describes it, or at the last word if one is missing; its message names the operand and says what is wrong: it is missing, the number cannot be parsed, the field is unknown, too new, not an array or not for inner transactions, the constant cannot be decoded or lacks its closing parenthesis. There is at most one such diagnostic on a line, there is none otherwise, and the same holds of the version of a #pragma.", "quantifier": "all sources, lines, versions in force, opcodes and operands, and all texts of the libraries", "why_tests_cant": "every opcode has its own reader, a line has arbitrarily many words, and a message is right only if all the words in front of the one it blames are operands", "anchors": ["process.go:mustReadArg", "process.go:parseBytes", "process.go:parseUint8", "process.go:mustReadPragma", "parser.go:readTxnField", "process.go:Process"]}
{"id": "C121", "title": "The editor is told what is wrong with operands", "statement": "When the editor asks for diagnostics of a file it has opened, the answer has, for an instruction whose operands are wrong, an error at the word that is wrong with the message of C120, and no other error about operands on that line; the same for the version of a #pragma. No such message begins like one of the other messages, so the editor's user can tell them apart.", "quantifier": "all sessions, documents, lines, versions in force, opcodes, operands, and all texts of the libraries that do not begin like one of the tool's own", "why_tests_cant": "the answer depends on everything opened, changed and configured before, and the messages are unboundedly many", "anchors": ["internal/lsp/lsp.go:doDiagnostic", "internal/lsp/lsp.go:prepareDiagnostics", "process.go:mustReadArg", "process.go:parseBytes"]}
{"id": "C122", "title": "Why a constant cannot be read", "statement": "The message about an operand that cannot be read says why. Of a number it says that the value is out of range if the word begins with a number that is too large for the operand, and that the syntax is invalid otherwise; of a constant in hex it names the first byte that is not a digit, or says that their number is odd; of a string it names the first escape that cannot be read. No such text begins like one of the tool's own messages.", "quantifier": "all words, all lines and sessions, and all ways to quote a word", "why_tests_cant": "words are unboundedly long and what is said depends on the first byte at which reading stops", "anchors": ["go_algorand.go:parseStringLiteral", "parser.go:readUint8", "parser.go:readInt8", "parser.go:readInt", "parser.go:readConstInt", "process.go:parseBytes"]}
{"id": "C123", "title": "Where reports are below lines with too many words", "statement": "In the result of processing a text, the listing has one entry for each line, in order, and an empty one more behind that of each line that is said to have too many values. The entry of a line is empty if it has no words, a label exactly if the line defines it, and branches to the labels that are operands of the line. Every report of the linter is about a line with words and is found as many lines below that line as there are lines above it that have too many values; so labels are reported as missing, duplicated or unused exactly if they are, but this far from the line they are about.", "quantifier": "all texts that have a result, all lines and all names of labels", "why_tests_cant": "any number of lines can have too many words, and the distance grows with each of them", "anchors": ["process.go:Process", "linter.go:Linter.Lint", "process.go:emit", "linter.go:MissingLabelError", "linter.go:DuplicateLabelsRule", "linter.go:UnusedLabelsRule"]}
{"id": "C124", "title": "What the debugger does with the instructions it gets wrong", "statement": "The instructions whose effect on the stack is not that of the reference have, in the debugger, this effect: bitlen takes only byte strings, getbit and setbit take only integers, app_opted_in takes an integer for the account, b-, b|, extract_uint64, addr and itxna leave the stack alone, pushints leaves as many byte strings as it has operands, dup2 leaves both pairs swapped, bury and dig count from the bottom of the stack (dig with a position of eight bits), and stores takes a constant only if it is the number of a slot. A step to one of them that can be paid for fails exactly if there is nothing it could do in this way, and otherwise has this effect.", "quantifier": "all programs, versions and reachable states of the machine, all operands and all stacks", "why_tests_cant": "stacks are unboundedly high and a position counted from the wrong end agrees with the right one on small examples", "anchors": ["expr.go:Execute methods of BuryExpr, DigExpr, Dup2Expr, StoresExpr and others", "vm.go:VmBranch.replace", "vm.go:VmBranch.store", "vm.go:VmBranch.pop"]}
{"id": "C125", "title": "Where the branches of the debugger go", "statement": "Every branch of the debugger is where the instructions in its history lead: from the first line on, lines without an instruction are passed, b goes to the last definition of its label, callsub too and remembers the line behind it, retsub goes to the line remembered last and forgets it, or, if there is none, to the next line; bnz, bz, switch and match go on with the next line and create a branch for each label that remembers nothing; everything else goes on with the next line. The lines remembered are those of the frames of the branch. The name of a branch is that of the last label it has passed, at first (main) or the label it was created for, and a return gives back the name it had at the call; frames have the names of the branch at their calls, and a branch that has ended is named (exited), except for one whose label is not defined. An instruction that fails is in the history and is tried again. A branch is at no line exactly because its history leads behind the last instruction, the next instruction costs more than is left, the last one was return or err, or its label is not defined.", "quantifier": "all programs, versions and reachable states of the machine, all branches", "why_tests_cant": "histories are unboundedly long and calls nest unboundedly", "anchors": ["vm.go:Vm.Step", "vm.go:VmBranch.jump", "vm.go:VmBranch.fork", "vm.go:Vm.skipNops", "expr.go:RetSubExpr.Execute", "expr.go:CallSubExpr.Execute"]}
{"id": "C126", "title": "What the debugger does with frames", "statement": "In a subroutine that was called with h values on the stack and has declared a arguments and r results (none before its proto), frame_dig i and frame_bury i access slot (h + i) modulo 256 from the bottom of the stack, proto leaves the stack alone, and retsub takes r values, then a values, and puts the first r back; each of them fails exactly if the stack does not have these values. On a branch that is in no call, retsub leaves the stack alone and the others fail.", "quantifier": "all programs, versions and reachable states, all calls with whatever has been called and returned from since, all operands", "why_tests_cant": "calls nest unboundedly, a subroutine can run arbitrarily long, and the slot is counted right on small stacks", "anchors": ["expr.go:FrameDigExpr.Execute", "expr.go:FrameBuryExpr.Execute", "expr.go:RetSubExpr.Execute", "expr.go:ProtoExpr.Execute", "vm.go:VmBranch.prepare", "vm.go:VmBranch.call"]}
{"id": "C127", "title": "Why an instruction fails", "statement": "When an instruction (other than those on frames) fails in the debugger, the reason is the first value, from the top of the stack, that is missing or of the wrong type: the error names the type expected and the type found, the values above are gone, and the branch stays at the instruction. Otherwise the machine looked at a place that does not exist: below the stack with dig, above it with bury, a constant slot above 255 with stores, or the value that determines the price of base64_decode or json_ref on an empty stack. The event the client gets has the description 'Error: empty stack - expected: T' or 'Error: unexpected data type on stack - expected: T, got: U' for the error the machine is left with.", "quantifier": "all programs, versions and reachable states, all instructions with operands in range, all stacks, all states of the adapter and requests", "why_tests_cant": "stacks and programs are unbounded, and the reason depends on all values an instruction takes", "anchors": ["vm.go:VmBranch.pop", "vm.go:VmDataType.String", "vm.go:Vm.Step", "expr.go:Execute", "dbg/dbg.go:dbg.handle"]}
{"id": "C128", "title": "Labels are offered with their comments and signatures", "statement": "When labels are offered as the target of a jump, each definition of a label is offered with the comment lines directly above it, one below the other, and, if a `proto` follows it, with the numbers of arguments and results of this `proto`; the client gets the comment as the documentation of the item and the numbers as its detail.", "quantifier": "all texts, sessions, positions on a jump and labels", "why_tests_cant": "texts have any number of labels, comments and functions between them", "anchors": ["process.go:Process", "process.go:ProcessResult.ArgValsAt", "process.go:parserContext.emit", "lsp/lsp.go:textDocument/completion"]}
{"id": "C129", "title": "What is said about opcodes and fields", "statement": "Over an opcode with a description, a hover shows the description and, on the next line, further remarks if there are any; over a field it shows the name, the number and, on the next line, the remark on the field, with the sentence that it is for applications only if it is. Signature help comes with the same text for the opcode, completion with the description of an opcode and the remark on a field. All these texts are UTF-8.", "quantifier": "all texts, sessions and positions, all opcodes, fields and offered values", "why_tests_cant": "any position of any document may be asked for, and the text depends on which of twelve tables of fields the operand is looked up in", "anchors": ["process.go:ProcessResult.DocAt", "process.go:Ops", "process.go:OpArgVals", "go_algorand.go:opDocByName", "go_algorand.go:opDocExtras", "go_algorand.go:addExtra", "cmd/teal-lsp/lsp.go:textDocument/hover"]}
{"id": "C130", "title": "Base32 constants, and where encoded constants go wrong", "statement": "A base32 constant is accepted exactly if it is a base32 text, with padding or without, and stands for the bytes the text encodes. The message about a base32 or base64 constant that is not accepted names the byte at which the text goes wrong: the first that is not a symbol, the padding where none may be or where more is due, what is behind the padding, or the group the text ends in. The message is shown at the word it is about.", "quantifier": "all texts, all words and byte strings of any length", "why_tests_cant": "the place depends on the length of the text modulo the group size, on where padding begins and on what follows it, for texts of any length", "anchors": ["go_algorand.go:base32DecodeAnyPadding", "process.go:parserContext.parseBytes", "process.go:parserContext.failCurr"]}
{"id": "C131", "title": "The word quoted in a message is the word", "statement": "A message about a number that cannot be read quotes the word in such a way that whoever reads the message knows the word: the quoted text is a string literal of Go that stands for the word, ends where the closing quotation mark is, and stands for no other word. It is one line without control characters and is UTF-8, even if the word contains quotation marks, backslashes, control characters or bytes that are not UTF-8. A plain word is shown as it is.", "quantifier": "all words, of any bytes and any length, and every choice of which characters outside ASCII can be printed", "why_tests_cant": "what has to be escaped depends on how bytes combine to characters, for words of any length and any bytes", "anchors": ["parser.go:readUint8", "parser.go:readInt", "parser.go:readInt8", "go_algorand.go:parseStringLiteral"]}
{"id": "C132", "title": "Executing a command changes exactly what it says", "statement": "When a command of the server is executed on an open document, the edits that the client is asked to make are: for removing a line, the removal of that line with its line break; for replacing a value, the replacement of the given range by the given text; for creating a label, its definition on a line of its own behind the lines of the text; for removing a label, the removal of all words that define it, with their colons, and of nothing else; for changing the version, the replacement of the number of the last version pragma, or, if there is none, a new pragma in front of the text.", "quantifier": "all sessions, open texts, commands and their arguments", "why_tests_cant": "The edits depend on the text that the session has left in the document and on the analysis of all its lines.", "anchors": ["lsp/lsp.go: lsp.handle (workspace/executeCommand)", "process.go: ProcessResult.SymByName"]}
{"id": "C133", "title": "What optimising removes", "statement": "Optimize returns the program with some lines removed, in their order, and nothing else changed. It removes, one after the other: labels nothing refers to (unless the next instruction is retsub or proto) and every retsub that is not directly behind a label something refers to; then the instructions behind b, return or err up to the next label; then every b to the label that comes next. Comments, pragmas, empty lines and labels in use stay. A program is unchanged exactly if there is nothing to remove in it. In the result there is nothing behind b, return or err before the next label and no b to the label that comes next, but optimising it again may remove labels and what follows from that; repeating it ends, after at most as many times as the program has lines. Every line a step removes is reported by the linter in the program that the step is given, except for retsub.", "quantifier": "all listings", "why_tests_cant": "There is no bound on the length of a program, and whether a line stays depends on lines arbitrarily far before and behind it.", "anchors": ["compiler.go: Optimize, removeUnused, removeOpsAfterUnconditionalBranch, removeBJustBeforeItsTargetLabel, mergeLabels"]}
