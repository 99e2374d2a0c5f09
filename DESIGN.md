# Formal model of go-aci

Source: `/repo` (package `aci`), read as text.  The model is in `lean/Verif/`.
The list of properties is `properties.jsonl`; the status per property is
`MANIFEST.json`; the log of seeded faults is `seeded/LOG.jsonl`.

## Layout

* `Verif/Model/*.lean`   definitions that follow the Go code, function by
  function, each with the file and lines it stands for.
* `Verif/Spec/*.lean`    small definitions used only to *state* properties
  (last-mention histories, truth values of rule trees, clock times, ...).
  They call no function of the model; some mention its types of data.
* `Verif/Lemmas/*.lean`  helper lemmas.
* `Verif/Props/*.lean`   the property theorems, named after the property
  (`C01_...`), each with an `example` showing that its hypotheses can be met.
* `Verif/Samples/*.lean` the values the tests of the repository (`/repo/*_test.go`) expect,
  run on the model.  They check the reading of the code; they are tests, and no theorem
  uses them.  `Samples/Hash.lean` checks the eleven SHA-1 digests of `TestHash`.

## Conventions

* A Go string is a list of bytes (`Str := List UInt8`); nothing assumes UTF-8.
* A Go `error` is a value: functions that return `(T, error)` return
  `Except Unit T`, or a pair when the code returns a usable value together with
  an error.  The texts of errors are modelled in `Model/Err.lean` only; C85
  shows that the constructors of errors return errors.  A Go panic is an explicit
  outcome (`none` or `Outcome.panic`), where one is possible.
* A nil pointer is `none`.  A struct that embeds a pointer shares its storage
  between copies; methods of such types are modelled as functions from the old
  to the new content of the shared cell, so the model speaks about all copies.
  `Model/Alias.lean` makes the cells explicit: variables hold references into a
  heap, programs make, copy, assign and call, and each method stores in place,
  makes new storage or changes nothing (C91, C92); `Model/Globals.lean` does the
  same for the predefined names, which the readers of names ask (C93).
* Stacks and conditions are pointers as well, but are modelled as the tree of
  their contents.  `Model/Nest.lean` follows stacks of bind rules as addresses in
  memory, where an entry may change after it was pushed and a stack may hold itself
  (C113, C114), and says when the trees are what memory holds; `Model/Share.lean` does
  so for rules and the lists they hold (C112), and `Model/Held.lean` for lists of target
  rules and rules that change after they were pushed (C115).  `Model/Heap.lean` keeps whole
  instructions in memory, down to permissions and bind contexts (C116, C117).
* Rules read by the parser are conditions of go-stackage.  Its operators have a type of
  their own, which `castCop` does not know; `Model/Piece.lean` keeps the type of the
  operator beside the rule, the other modules do not ask for it.
* Arguments of type `any` are sums of the types the code switches on plus one
  alternative `other`.
* Go maps that are iterated are lists in an arbitrary order: theorems hold for
  every permutation of the table.
* `strings.EqualFold` with one ASCII operand is exact (`Str.fold`): the two
  non-ASCII characters that fold to ASCII letters (U+212A and U+017F) are
  included.  Where both operands are arbitrary, an arbitrary relation satisfying
  the contract `EqualFold` (equivalence relation, exact against ASCII) is a
  parameter.  `strings.ToLower` is exact for comparisons with ASCII strings
  (U+212A and U+0130 included).

## Outside code: contracts

The dependencies are not available, so they appear as parameters.  Each contract
is a structure or a definition in the model, with a witness that meets it.

* `go-shifty` (`BitValue`), `Shifty`: `Shift` ORs, `Unshift` clears, for operands
  that fit the word; `Positive` of a single bit reads this bit.  `Positive` of
  several bits or of zero, and operands that do not fit, are left unspecified.
* `go-stackage` (`Stack`), `stackPush`: `Push` asks the push policy, then appends
  at the end unless the policy returns an error.  Whether one refused argument of a
  multi-argument push stops the rest is a parameter.  `Pop` removes the last
  element, `Index` reads, `Len` counts.  `Replace` puts a value in the place of an
  entry.  A stack keeps the values it is given, so that a nested stack is held by its
  address, and `String` of a stack calls `String` of every entry (`Model/Nest.lean`).
* `go-stackage` (`Condition`): keyword, operator and expression are what was set;
  `Valid` wants all three.  `String` of a complete condition calls `String` of the
  expression and does not catch a crash (`BRule.crashes`); `fmt` does catch it.
* Texts of bind rules: `Printer` assumes only which texts are empty.  C75, which is
  about the texts, uses the rules of `Model/BindText.lean`, taken from the outputs
  in the tests of the repository.
* `go-antlraci`: its output (tokens, trees) is the input of the model, and a parser
  from texts to these is a parameter.  C76 assumes that a parser does not look at
  white space outside of quotation marks (`Tolerant`).
* `go-objectid`, `DotReader`: the dot-notation reader is a parameter; what it
  returns is not empty and has only digits and full stops.
* `crypto/sha1`: an arbitrary function; injectivity is a hypothesis where needed.
* `reflect`: a value of type `any` is seen by its type; sizes of the integer types as the
  language defines them, with the size of a word as a parameter (`Model/Cast.lean`).
* `fmt.Sprintf`: modelled for the verbs in `err.go`, with its complaints.

`Env` and `World` bundle these parameters for bind rules and for instructions.

## Trusted base

Lean 4.33.0 kernel; the axioms `propext`, `Classical.choice`, `Quot.sound`
(at most; listed per theorem at the end); the contracts above; the reading of
the Go code recorded in the comments of `Verif/Model`.  No axiom is added, and no
proof rests on compiled code.

## Seeded faults

`seeded/LOG.jsonl` has one line for each edit of the model that was tried in a
scratch copy.  `failed` lists the theorems whose proofs no longer go through.
This is weaker than it may look: a proof can break although its statement is
still true in the edited model, so an entry in `failed` does not by itself show
that the statement excludes the fault.  Edit `sc4` was such a case: a proof of
C21 broke, nothing excluded the fault, and C22 had to be extended.  Entries with
`refuted` are stronger: there `False` was derived in Lean from the statement of
the theorem named, in the edited model.  The other entries have not been checked
in this way.

The log is written from the result files of the runs, not line by line as they
happen.  Until the commit that added this paragraph it left some attempts out:
the later hand-written batches, random edits that do not type check or whose
build did not end in time, and six random edits that survived without an
explanation.  They are in it now.  An edit that survived says so in `note`; the
notes "equivalent" and "no property is claimed" are judgements made by reading,
not proofs.  Some ids were used in two batches; the later ones carry the number
of their batch, and `refuted` is kept there only where it fits `failed`.  Results
of two runs that overlapped in one directory were thrown away and the edits run
again, as far as time allowed.

## What is modelled, and what is not

The comments of the definitions cite functions that make up 7532 of the 7836 lines of all functions of the package.
The functions not cited anywhere are below.  They are wrappers of one line around go-stackage or around a
modelled function (`Compare`, `Len`, `Kind`, `ID`, `Category`, `IsZero`, `cast`), conversions between types with
the same content, navigation and editing of stacks by index, and functions nothing calls.

* `attr.go`: 45 functions modelled; not modelled: `AttributeBindTypeOrValue.Compare`, `AttributeType.Compare`, `AttributeType.isAttributeTypeContext`, `AttributeValue.Compare`, `AttributeTypes.F`, `AttributeTypes.Compare`, `AttributeTypes.reset`, `AttributeTypes.isAttributeTypeContext`, `AttributeTypes.IsZero`, `AttributeTypes.String`, `AttributeTypes.Valid`, `AttributeTypes.Contains`.
* `bind.go`: 60 functions modelled; not modelled: `BindRuleMethods.Index`, `BR`, `BindRuleMethods.IsZero`, `BindRule.isBindContextQualifier`, `BindRule.Expression`, `BindRules.isBindContextQualifier`, `BindRules.IsZero`, `BindRules.ID`.
* `cop.go`: 11 functions modelled.
* `dn.go`: 84 functions modelled; not modelled: `BindDistinguishedNames.Valid`, `TargetDistinguishedNames.Valid`, `TargetDistinguishedName.isDistinguishedNameContext`, `BindDistinguishedNames.reset`, `TargetDistinguishedNames.reset`, `BindDistinguishedNames.Compare`, `TargetDistinguishedNames.Compare`, `BindDistinguishedNames.ID`, `TargetDistinguishedNames.ID`, `BindDistinguishedNames.IsZero`, `TargetDistinguishedNames.IsZero`, `TargetDistinguishedNames.String`, `distinguishedNamesPushPolicyKeywordHandler`.
* `err.go`: 42 functions modelled.
* `filter.go`: 57 functions modelled; not modelled: `newSearchFilter`, `SearchFilter.Compare`, `AttributeFilter.Compare`, `AttributeFilter.Keyword`, `AttributeFilterOperations.F`, `AttributeFilterOperations.Compare`, `AttributeFilterOperations.Contains`, `AttributeFilterOperations.IsZero`, `AttributeFilterOperations.Valid`, `AttributeFilterOperation.Compare`, `AttributeFilterOperation.F`, `AttributeFilterOperation.IsZero`, `AttributeFilterOperation.Valid`, `AttributeFilterOperation.getCategory`, `AttributeFilterOperation.presentationPolicy`, `AttributeFilterOperation.setCategory`.
* `ins.go`: 24 functions modelled; not modelled: `Instructions.Contains`, `Instructions.IsZero`, `Instructions.F`, `Instructions.Valid`.
* `kw.go`: 8 functions modelled; not modelled: `BindKeyword.Kind`, `TargetKeyword.Kind`.
* `levels.go`: 25 functions modelled.
* `misc.go`: 14 functions modelled.
* `net.go`: 38 functions modelled; not modelled: `IPAddr.unique`.
* `oid.go`: 34 functions modelled; not modelled: `ObjectIdentifier.Compare`, `ObjectIdentifier.isObjectIdentifierContext`, `ObjectIdentifiers.IsZero`, `ObjectIdentifiers.Valid`, `ObjectIdentifiers.isObjectIdentifierContext`, `ObjectIdentifiers.String`, `ObjectIdentifiers.Compare`, `ObjectIdentifiers.Contains`, `ObjectIdentifiers.reset`, `ObjectIdentifiers.ID`.
* `parse.go`: 42 functions modelled; not modelled: `ParseBindRule`, `assertParserRuleExpr`, `makeParserRuleExpr`, `ParseTargetRule`.
* `pb.go`: 18 functions modelled; not modelled: `newPBR`, `PermissionBindRule.Kind`, `PermissionBindRules.Valid`, `PermissionBindRules.IsZero`, `PermissionBindRules.Kind`, `PermissionBindRules.Contains`.
* `rights.go`: 22 functions modelled.
* `scope.go`: 12 functions modelled.
* `sec.go`: 24 functions modelled; not modelled: `SecurityStrengthFactor.clear`, `ssf.clear`.
* `shifty.go`: 6 functions modelled.
* `stackage.go`: 25 functions modelled; not modelled: `BindRule.cast`, `castAsCop`, `badCond`.
* `target.go`: 39 functions modelled; not modelled: `TargetRuleMethods.Index`, `TargetRuleMethods.IsZero`, `TargetRule.Kind`, `TargetRule.Expression`, `TargetRules.Kind`, `TargetRules.Valid`.
* `time.go`: 37 functions modelled; not modelled: `DayOfWeek.Compare`, `Day.Compare`, `TimeOfDay.Compare`, `timeOfDay.set`.
* `uri.go`: 19 functions modelled; not modelled: `LDAPURI.Compare`, `LDAPURI.isDistinguishedNameContext`.

Also not modelled: the parsers (go-antlraci), go-stackage beyond the contracts above, go-objectid, SHA-1,
concurrency, memory, and aliasing except where a comment says so.

## Properties

Status `partial` means that the code violates the property, as shown by the `counterexample` theorems, and that
the remaining theorems say exactly what does hold, unless the note says otherwise.

| id | property | modelled code | method | status |
|----|----|----|----|----|
| C01 | Permission bits track exactly the grants and revocations made | rights.go permission.shift/unshift/positive | refinement of the 16-bit word to "last mention wins", induction over histories | proved |
| C02 | The text of a permission determines it | Permission.String | rendering depends on bits only; decision over all 1024 words, lifted | proved |
| C03 | Rendered permissions parse back to themselves | Permission.String, unpackageAntlrPermission | round trip | proved |
| C04 | The permission reader grants exactly what was listed, or fails | unpackageAntlrPermission | case analysis plus induction over names | proved |
| C05 | Permission length counts the granted rights | Permission.Len, Valid | count of bits, all words | proved |
| C06 | Inheritance levels track exactly the levels switched on and off | levels.go shift/unshift/positive | refinement, induction over histories | proved |
| C07 | Inheritance text round trip | Inheritance.String, parseInheritance | round trip | proved |
| C08 | Reading inheritance text never crashes | parseInheritance | expected false: `raw[idx+1]` may be out of range; witness, exact panic condition | partial |
| C09 | Malformed inheritance text is refused | parseInheritance | exact acceptance condition | proved |
| C10 | Day sets track exactly the days switched on and off | DayOfWeek.Shift/Unshift/Positive | refinement, induction over histories | proved |
| C11 | Day set text round trip | DayOfWeek.String, parseDoW | round trip over all sets | proved |
| C12 | A list of days is read completely or refused | parseDoW | induction over the list | proved |
| C13 | Clock times survive storage | assertToD, timeOfDay.string | all clock times, lifted | proved |
| C14 | Bad clock times are refused | assertBindTimeOfDay | exact acceptance condition | proved |
| C15 | Constructing a TimeOfDay from bad text does not yield a usable time | ToD | expected false (prints 0000); witness and what does hold | partial |
| C16 | Timeframe means not before and strictly before | Timeframe | evaluation of the two conditions | proved |
| C17 | Keyword names resolve to their keyword in any letter case | matchBKW, matchTKW, matchBT | exact characterisation | proved |
| C18 | Only permitted operators ever reach a rule | SetOperator, keywordAllowsComparisonOperator | decision table | proved |
| C19 | Operator lookup by text is faithful | matchCOP | exact characterisation | proved |
| C20 | Method maps expose only real operators | BindRuleMethods/TargetRuleMethods index | expected false for bind methods (wraps modulo 256); exact condition | partial |
| C21 | Search scopes round trip through their text | strToScope, standard, targetScope | expected false for subordinate in URI notation; rest proved | partial |
| C22 | Target scope rules only from real scopes | SearchScope.Eq/Ne | decision over all values | partial |
| C23 | IP lists keep accepted addresses once and in order | IPAddr.Set | invariant and refinement over histories | proved |
| C24 | Host names are taken whole or not at all | FQDN.Set | invariant | partial |
| C25 | Host names respect the documented length limit | FQDN.Valid | expected false; witnesses and bounds that hold | partial |
| C26 | Strength factors clamp and print what they hold | SSF set and String | all integers | proved |
| C27 | Strength factors never rise from unusable input | SSF set | expected false on the unset value; rest proved | partial |
| C28 | Authentication methods resolve by name and by number consistently | matchAuthenticationMethod | expected false by number; names proved | partial |
| C29 | Attribute/bind-type pairs round trip | parseATBTV, ABTV String | round trip, rejection | partial |
| C30 | The bind keyword asked for is the one obtained | ABTV.Parse, parseInheritance, assertBindUGAttr | expected false for groupattr; witness | partial |
| C31 | Attribute lists hold no duplicates | AttributeTypes.Push, pushPolicy, TAs, UAs | content after any history; the policy is bound to the zero value, so it sees no entries | partial |
| C32 | Attribute identifiers are well formed | isIdentifier | exact characterisation; bytes above 127 | proved |
| C33 | Distinguished names carry exactly one local scheme prefix | newDistinguishedName, String | idempotence | proved |
| C34 | Lists of distinguished names are uniform, duplicate free and ordered | DN list Push | invariant and refinement over histories | proved |
| C35 | Popping a list returns what was pushed last | DN list Pop | expected false when an LDAP URI is last | partial |
| C36 | Malformed distinguished names in rule text are refused | isInvalidDNSyntax | expected false; exact acceptance | partial |
| C37 | Object identifier lists hold distinct identifiers of one kind | ObjectIdentifiers.Push | invariant over histories | proved |
| C38 | LDAP URIs print every component they hold | LDAPURI.String | expected false: attributes dropped without filter | partial |
| C39 | LDAP URI text round trip | parseLDAPURI | round trip | partial |
| C40 | Attribute filter text round trip | AttributeFilter parse/String | round trip; empty filter accepted is expected to be a defect | partial |
| C41 | Attribute filter operations keep their operation and their filters | AttributeFilterOperation parse/String | round trip | partial |
| C42 | Filters may contain any text | parseAttributeFilterOperations | expected false | partial |
| C43 | A target rule list never holds two rules of one keyword | TargetRules push policy | invariant over histories | proved |
| C44 | Target attributes are read completely | assertTargetAttributes | expected false (first value repeated) | partial |
| C45 | Reading target rules reports the first unreadable rule | processTargetRules | induction over the list | partial |
| C46 | Reading bind rules preserves their logical meaning | convertBindRulesHierarchy | semantics preservation by induction over trees; expected false when a value is unreadable | partial |
| C47 | Removing redundant envelopes preserves meaning | uncloak | semantics preservation | proved |
| C48 | Bind rule lists accept only usable bind contexts | BindRules push policy | expected false for invalid bind rules; rest proved | partial |
| C49 | Permission bind rules are complete and distinct | PermissionBindRules push policy | invariant over histories | proved |
| C50 | A permission bind rule shows both of its parts | PermissionBindRule.String | decision logic | proved |
| C51 | The label of an instruction is fixed once set | Instruction.Set | refinement over histories | proved |
| C52 | Instruction lists hold no duplicate instructions | Instructions push policy | invariant; white space condensing makes the two sides differ | partial |
| C53 | Parsing an instruction loses no permission bind rule | Instruction.Parse | expected false: errors discarded | partial |
| C54 | White space condensing is harmless | condenseWHSP | ASCII proved; expected false above 127 | partial |
| C55 | Unquoting undoes quoting | unquote | direct | proved |
| C56 | Compare is a sound equality test | hashInstance, compareHashInstance | abstract hash | proved |
| C57 | A rule's operator is always one its keyword permits | SetKeyword, SetOperator, Valid | invariant over histories of the three setters | partial |
| C58 | A dns bind value is a host name | assertBindNet, DNS, FQDN.String | exact acceptance condition | partial |
| C59 | Object identifier values are all kept or the rule is refused | assertTargetOID, setExpressionValues | induction over the values | partial |
| C60 | A list of filter operations prints as it was written | parseAttributeFilterOperations, String, SetDelimiter | round trip of text | partial |
| C61 | Values of a rule are quoted once | SetQuoteStyle, setQuoteStyle, String | case analysis over styles and number of values | partial |
| C62 | Target rules made in one step are valid exactly if their parts fit | TR, newTargetRule, Valid | exact condition | proved |
| C63 | Reading one target rule reports an unreadable value | parseTargetRule, assertExpressionValue | decision logic over the outcome of the reader | partial |
| C64 | Weekdays and Weekend give the days they name | Weekdays, Weekend, BRM, index | evaluation for every operator argument | partial |
| C65 | Reading one bind rule reads its value | ParseBindRule, BindRule.Parse | witness | partial |
| C66 | Bind rules made in one step are valid exactly if their parts fit | BR, newBindRule, Valid | exact condition | partial |
| C67 | A valid permission bind rule is usable | PermissionBindRule.Valid, PBR | exact condition | partial |
| C68 | Setting parts of a permission bind rule | PermissionBindRule.Set | refinement over histories | proved |
| C69 | A valid instruction is complete | Instruction.Valid, String | witness and exact condition | partial |
| C70 | The text of an instruction shows its label | Instruction.String | text as concatenation, label read back | partial |
| C71 | Tables of rule methods list the operators ACIv3 allows | all BRM and TRM methods | decision table over types and operators | partial |
| C72 | Rule methods make the rule they are listed for | all Eq ... Ge methods | case analysis over types, operators and values | partial |
| C73 | A valid table of rule methods makes valid rules | BindRuleMethods.Valid, TargetRuleMethods.Valid | case analysis over types | partial |
| C74 | Numbers find the methods of the names beside them | index, range...FuncMap | decision over numbers and names | partial |
| C75 | The text of bind rules shows their meaning | BindRule.String, BindRules.String | unique readability of texts, induction over trees | partial |
| C76 | Texts are read as they are written | parseBindRules, parseTargetRules, Parse, condenseWHSP | invariance of the token sequence under condensing | partial |
| C77 | Reading into a receiver is all or nothing | the thirteen Parse methods | case analysis over outcomes; the exact reading theorems of C40, C78, C89, C90 | proved |
| C78 | Filter operations are read as written | parseAttributeFilterOperation(s), Push, Pop, Contains | exact acceptance; invariant over histories | partial |
| C79 | Values given at creation are the values pushed | AFOs, PBRs, Push | comparison of two folds | partial |
| C80 | Target values are read as their keyword demands | assertExpressionValue and the assertTarget... functions | decision logic per keyword | proved |
| C81 | A URI holds the parts given to it | LDAPURI.Set | refinement over sequences of parts | partial |
| C82 | The rule of a URI has the documented keyword | makeBindRule, Keyword | case analysis | partial |
| C83 | Parts of an attribute pair are not replaced | atbtv.set, ABTV.Set | refinement over histories | partial |
| C84 | Bind values are read as their keyword demands | BindRule.assertExpressionValue and the assertBind... functions | decision logic per keyword | proved |
| C85 | What is refused is reported | all of err.go | case analysis over all calls | proved |
| C86 | Error messages are complete | all of err.go, fmt.Sprintf | texts with percent signs, induction over the format | partial |
| C87 | Compare tells values apart and knows them again | Compare of the simple types, getStringFunc | injectivity of each text, from the round trips | partial |
| C88 | The text of an instruction shows all of it | Instruction.String, setLabel, the texts of target and permission bind rules | unique reading from left to right, on top of C75 | partial |
| C89 | LDAP URI text is read part by part | parseLDAPURI, parseATBTV, parseInheritance | a relation between texts and components, proved equivalent to the reader | partial |
| C90 | A permission bind rule that is read says what its text says | processPermissionBindRule, unpackageAntlrPermission, convertBindRulesHierarchy | on top of C04, C46 and C84 | partial |
| C91 | Changing one value leaves every other value as it was | Set, Shift and Unshift of fifteen types, as programs over variables and storage | simulation between a program and its restriction | partial |
| C92 | What was made from a value keeps saying what it said | bindDNToCondition, pushBindDistinguishedNames, the predefined names | invariant over the later program | partial |
| C93 | How a text is read depends on the text alone | isDNAlias, isInvalidDNSyntax and the readers that ask them, with the predefined names as variables | agreement of readers in two memories, kept by C92 | partial |
| C94 | A value reports the keyword of the rules made from it | the Keyword methods of all values, bdnsKeyword to targetKeyword | case analysis over the types, with C72 for the rules | partial |
| C95 | The function a list hands out makes what the list takes | F and Push of the three lists | the maker has the keyword of the list | proved |
| C96 | A rule put together step by step is the rule made at once | Init and the setters of both kinds of rules, newBindRule, newTargetRule | induction over the calls, with C18 for the operators | partial |
| C97 | Rules and contexts say about themselves what is documented | ID, Category, Operator, Valid, the methods of BindContext, castCop | invariants over the calls; induction over paths | partial |
| C98 | What a value prints is read as that value | assertExpressionValue of both kinds of rules, the String methods | the texts of a sound value stand in the relations of C80 and C84, which are exact | partial |
| C99 | Bind rules that are read print as their text | convertBindRulesHierarchy, uncloakBindRules, SetQuoteStyle, the texts of contexts | uncloaking keeps the text; unique reading of displayed expressions (C75), whose atoms are the rules | partial |
| C100 | An instruction that is printed is read as this instruction | Instruction.Parse, Instruction.String, processTargetRules, processPermissionBindRules, unpackageAntlrPermission | the text splits in one way only (C88); rights by C03, values by C98, bind rules by C99 | partial |
| C101 | A list shows and finds what it holds | Index, Len, Pop, Contains of the nine list types | one view of a list for all nine types; each method against the entries; invariants of C34 and C37 for the texts | partial |
| C102 | The length of a value counts its parts | Len of DayOfWeek, Inheritance, IPAddr, FQDN, method tables and single values, isDotNot | bits of the word against days and levels held; parts of the text by counting separators; C23 and C24 for addresses and labels | partial |
| C103 | An attribute filter holds the parts given to it | AF, AttributeFilter.Set, AttributeType, SearchFilter, String, AV, AttributeValue.String | state up to zero values over the calls; the last argument that gives a part decides it | partial |
| C104 | Conversions between the types keep what is stored | castAsStack, castAsCondition, castAsBindRule(s), isStack, isStackageStack, isPkgStack, isStackageCondition, derefC, cast | cases of the type switches, for any contents | partial |
| C105 | Powers of two and the sizes of numbers are known | isPowerOfTwo, isPtr, isIUint, bitSize, levelBitIter | bits of x and x-1 (core lemma on powers of two); cases of the kinds | partial |
| C106 | The layout of rules does not change what they say | NoPadding, Fold, Paren, IsParen, String of rules and lists of rules; wordToStack | texts as steps of a reader with four places; texts that say the same from each place are a congruence; mutual induction over contexts and over trees | partial |
| C107 | Only an empty list takes another keyword | resetKeyword of BindDistinguishedNames, TargetDistinguishedNames, ObjectIdentifiers, AttributeTypes; Keyword | a word without i and k is reached by ToLower from its own letters only; cases of the words; all keywords by computation | partial |
| C108 | An edited stack holds rules, each in its place | `BindRules.Push`, `Pop`, `remove`, `insert`, `Replace`, `Index`, `ReadOnly`, `reset`, and those of `TargetRules` | invariant over sequences of calls; places by cases on the numbers | partial |
| C109 | A value is valid exactly if its text says something | the `Valid`, `IsZero` and `String` methods of single values and sets | first byte of every text | partial |
| C110 | Reading rules does not crash | parseInheritance, assertBindUGAttr, assertExpressionValue, convertBindRulesHierarchy, processPermissionBindRule(s), Instruction.Parse | outcome analysis of each reader; mutual induction over trees, in both directions | partial |
| C111 | Names and addresses are local | LocalScheme, newDistinguishedName, chopDNPfx, String and Set of names, parseLDAPURI, ldapURI.string | states with the variable as a component; induction over programs | partial |
| C112 | What is done to a rule or a list leaves the other rules as they are | SetQuoteStyle, setQuoteStyle, Eq and Ne of the lists, Push, Pop | memory with lists and rules; induction over histories with the list, its setting and all rules as invariant; colouring of places for separation | partial |
| C113 | Whatever was made of bind rules can be printed | And, Or, Not, Push, Pop, Index, Replace, Paren and String of stacks of bind rules | memory with stacks that hold addresses; printing with a bound on the depth; no circle exactly if some depth suffices, by a pigeonhole argument; frame lemma for what does not contain the changed stack | partial |
| C114 | A call on one stack of bind rules leaves the texts of the others | the same, as statements about several variables | frame lemma: the tree of a context depends only on the stacks it contains | partial |
| C115 | A list of target rules keeps one rule of each keyword, also when rules change after they were pushed | TR, TargetRule.Init, SetKeyword, SetOperator, SetExpression, SetQuoteStyle, TRs, TargetRules.Push/Pop/Index/pushPolicy/String | memory with rules and lists; invariants by induction over programs; counterexamples computed | partial |
| C116 | What an instruction says changes only by calls on the instruction or on its lists | Instruction.Set, ACI, PermissionBindRule.Set, Push, Pop, Shift, Unshift, setters of target rules, in memory | invariant of memory (addresses in range, lists of instructions apart); frame theorem for each statement; simulation of the tree model | partial |
| C117 | Lists of permission bind rules stay complete and free of duplicates when rules change after they were pushed | PermissionBindRules.Push, Pop, contains, PBRs, PBR, PermissionBindRule.Set, Shift, Unshift, in memory | invariant of memory kept by each statement; frame theorem | partial |
| C118 | Lists of instructions hold no instruction twice, also when instructions change after they were pushed | `Instructions.Push`, `Pop`, `pushPolicy`, `contains`, `String`, `ACIs` in memory | invariant over programs (pairwise), storage an instruction is made of, counterexample by evaluation | partial |
| C119 | IsZero tells whether a value is unset | ['AttributeBindTypeOrValue.IsZero', 'AttributeBindTypeOrValue.Set', 'AttributeType.IsZero', 'BindDistinguishedName.IsZero', 'TargetDistinguishedName.IsZero', 'SearchFilter.IsZero', 'AttributeFilter.IsZero', 'ObjectIdentifier.IsZero', 'LDAPURI.IsZero', 'IPAddr.IsZero', 'FQDN.IsZero', 'DayOfWeek.IsZero', 'TimeOfDay.IsZero', 'SecurityStrengthFactor.IsZero', 'Permission.IsZero', 'Inheritance.IsZero', 'PermissionBindRule.IsZero', 'Instruction.IsZero'] | induction over histories; case analysis; the texts are told apart by their first or last byte, or by a byte only one of them has | partial |
| C120 | Lists hold valid values only | ['AttributeTypes.Push', 'BindDistinguishedNames.Push', 'TargetDistinguishedNames.Push', 'ObjectIdentifiers.Push', 'AttributeFilterOperation.Push', 'TargetRules.Push', 'PermissionBindRules.Push', 'Instructions.Push'] | Invariants of the push policies over histories; counterexamples by concrete histories. | partial |
| C121 | A value may be given as its text | ['AttributeTypes.Push', 'BindDistinguishedNames.Push', 'TargetDistinguishedNames.Push', 'AttributeFilterOperation.Push', 'AttributeFilterOperations.Push', 'TargetRules.Push'] | Equality of the lists; counterexamples by concrete values. | partial |
| C122 | Values can be made and printed without a crash | ['AttributeBindTypeOrValue.String', 'AttributeBindTypeOrValue.Set', 'parseATBTV', 'Inheritance.String', 'OID'] | Case analysis of the second place of the pair and its invariant over histories; counterexamples by concrete values. | partial |
| C123 | Bind rules can be printed without a crash | BindRule.String, BindRules.String, atbtv.String, AttributeBindTypeOrValue.Eq/Ne, convertBindRulesHierarchy, processPermissionBindRule(s), Instruction.Parse | crash predicate over nests equals an existential over leaves; invariant of the conversion; induction over pushes | partial |
| C124 | Arguments may be given together or one after another | all methods `Push`, `Set`, `Shift`, `Unshift` | case split on the first argument; the loops of the model are folds or end at a refused argument | partial |
| C125 | An instruction that is read permits what its text permits | Ins.parse, PB.processAll, Bind parse, Rights | membership in the list that parse_content / C53 / C100 describe, with C90 for each rule | partial |
| C126 | Permission bind rules that are pushed are in force | PB.push, PB.pushPolicy, Ins.set, Ins.ACI | first of each text (C49, C51); equal texts mean the same by rule_ends (C88) | partial |
| C127 | What lists and instructions hold was given to them | PB.push, PBRs, TRs.push, pushB, Ins.push, Ins.set, ACI, the Pop methods | invariant of the members over histories | proved |
| C128 | An instruction that is read applies where its text does | Ins.parse, processTargetRules, assertAll, transferTRs | C45 for each rule; first of each keyword (C43); C100 for printed text | partial |
| C129 | Whether the text printed for an unset value is read as a value | readBind, readTarget, the String methods of all value types | computation over the fixed list of texts, with the environment kept general | partial |
| C130 | Adding a rule works in one direction | PB.push, PB.pop, TRs.push, TRs.pop, pushB, Ins.set, Ins.push, Rights.shift, Rights.unshift | each list grows at its end only, by what was given (C127); bits by C01 | proved |
| C131 | The order in which rules, rights, days and levels are given makes no difference | Permission.Shift, Unshift, Allow, Deny, DayOfWeek.Shift, Unshift, DoW, Inheritance.Shift, Unshift, Inherit, PermissionBindRules.Push, TargetRules.Push, BindRules.Push | Rounds that or a mask into a word, or take it out, commute, so folds over permutations agree; the elements picked from permuted arguments are a permutation (Picks), and the meaning of a list asks only for its members | partial |
| C132 | A list of instructions prints one instruction per line and is restored from its lines | Instructions.String, Instructions.Push, Instruction.Parse, Instruction.String | The lines of a joined text are unique; condensed texts hold no line feed; induction over the list with C100 for reading and C52 for pushing | partial |
| C133 | Giving an argument again makes no difference | Shift, Set and Push of the named types | One step adds something or nothing; if what was added makes the check refuse the argument, and a refused argument stays refused when something is added, induction over the arguments in between gives the claim | partial |
| C134 | The words of the language are taken in any letter case | Str.lower, Str.fold, Str.upper, trimSpace, condenseWHSP, unquote, shift1, unshift1, matchStrDoW, parseDoW, strToScope, stringToIntSSF, byName, matchOn, matchCOPOn, wordToStack, readBind, parseInheritance, parseAFO | each function on texts commutes with lower-casing, or gives the same result after it; the readers follow | partial |
| C135 | Rules about days, times and strengths hold where their values say | DoW, dowCond, dayRule, todCond, timeframe, ssfCond, SSF, BR | each method makes a valid rule whose text names the days, the time or the factor (C10, C11, C16, C26, C64); the truth of the rule follows from the text | proved |
| C136 | White space around a value makes no difference | trimSpace, condenseWHSP, countStr, split1, readBind, setBindValue, assertBindUGAttr, readTarget, parseAFOs, parseVals, setTargetValues, assertTargetOID | trimming is unique (trimmed_iff); white space has none of the bytes that are counted or split at | partial |
| C137 | No result depends on the order in which maps are walked | matchOn, matchCOPOn, rightsNamesOn, assertStrOn, levelStringOn, byName, byNumber, matchAuthenticationMethod, authString, index, contains, valid, readBind, convert, parseBindRules, PB.process, Ins.parse, BExpr.texts, BCtx.text | the first match in a list all of whose matches give the same result does not change under permutation (find_perm); each of the maps has at most one entry per word, ignoring letter case; reading is compared by induction over the tree of the parser | proved |
| C138 | A value cannot end its quotation | Time.string, TimeOfDay.string, Sec.string, authString, levelsString, Rights.string, SearchScope.string, IPAddr.set, FQDN.set, AT, AV, newDN, mkFilter, userOrGroupAttr, Inherit, brm, BR, BRule.text, trm, TR, TRule.string | all printed words are checked; addresses, labels and attributes are invariants of their Set methods; the first quotation mark in a text is unique (front_unique) | partial |
| C139 | What is read alone is read alike as a part | permissionInto, readRules, pbInto, PB.parseInto, Ins.parse, targetInto, processTargetRules, bindInto, parseBindRules, uriInto, pairInto, operationsInto, operationInto, filterInto | what each Parse method stores (C77) is compared with what the reading of the whole (C45, C46, C53, C78, C84) says about its parts | partial |
| C140 | Values with the same text are interchangeable | PBR, PB.push, PBRs, Ins.push, Ins.set, AFO.push, AFOs.push, BDNs.push, TRs.push | whether a value is taken is read off its text (C109; first and last bytes), then induction on the arguments | partial |
| C141 | The text of what is read is not much longer than the text that was read | condenseWHSP, unquote, parseAttributeFilter, parseAFO, parseAFOs, parseATBTV, parseInheritance, newDN, parseLDAPURI | induction on the texts; the lengths of joined pieces (total) against those of split ones | partial |
| C142 | Reading what was printed, again and again, settles | AttributeFilter.parse, AttributeFilter.string, assertTargetFilter | a condensed ASCII text loses bytes at its ends only, so a round shortens it or leaves it; induction on the length, and on the rounds for the doubling | partial |
| C143 | A valid value stays valid when more is given to it | Permission.Shift, Permission.Unshift, DayOfWeek.Shift, Inheritance.Shift, Inheritance.Unshift, IPAddr.Set, FQDN.Set, BindDistinguishedName.Set, TargetDistinguishedName.Set, AttributeBindTypeOrValue.Set, PermissionBindRule.Set, AttributeFilter.Set, LDAPURI.Set, Instruction.Set | invariance over the arguments by induction; concrete witnesses for the three claims that fail | partial |
| C144 | Internet addresses are taken, and only these | IP, IPAddr.set, ipSet, isValidIP, isV4, isV6, assertBindIP | the notations are written down with numbers and groups; induction on the digits of a number and on the parts of an address | partial |
| C145 | Instructions that are pushed are in force | Ins.push, Ins.push1, Ins.accept, Ins.contains, Ins.string | an offered instruction is in the list or one with the same text is; by C88 these mean the same; a concrete witness for the failure | partial |
| C146 | Target rules and bind rules that are pushed are in force | TRs.push, acceptTR, pushB, acceptB, stackPush | the contents after Push by C43 and C48; evaluation of appended stacks; concrete witnesses for the failures | partial |
| C147 | Taking out, putting in and replacing a rule changes what is in force by that rule alone | PB.pop, Ins.pop, TRs.pop, popB, Stack.remove, Stack.insert, Stack.replace | a list is what Pop leaves followed by what it returns; membership before and after an edit | proved |
| C148 | Pop gives back what was pushed, the last first | pushB, popB, TRs.push, TRs.pop, PB.push, PB.pop, Ins.push, Ins.pop, TDNs.push, TDNs.pop | induction on the number of calls; the contents after Push by C34, C43, C48 and C49 | proved |
| C149 | Rules that compare as equal mean the same | bindContext, permissionBindRule, permissionBindRules, targetRule, targetRules (Compare), compareHashInstance | C56 reduces Compare to the texts, C75 and C88 the texts to the meaning; concrete witnesses for the failures | partial |

### Theorems

* C01: `Rights.C01_disposition_kept`, `Rights.C01_disposition_made`, `Rights.C01_from_constructor`, `Rights.C01_last_mention_wins`, `Rights.C01_unknown_ignored`, `Rights.C01_unknown_not_held`
* C02: `Rights.C02_reachable`, `Rights.C02_text`, `Rights.C02_text_injective`
* C03: `Rights.C03_round_trip`, `Rights.C03_round_trip_exact`
* C04: `Rights.C04_reader`
* C05: `Rights.C05_len`, `Rights.C05_valid`
* C06: `Levels.C06_all_levels`, `Levels.C06_from_constructor`, `Levels.C06_last_mention_wins`, `Levels.C06_zero`
* C07: `Levels.C07_from_constructor`, `Levels.C07_round_trip`
* C08: `Levels.C08_counterexample`, `Levels.C08_panics_partial`
* C09: `Levels.C09_accepted`, `Levels.C09_result`, `Uri.C09_exact`
* C10: `Time.C10_from_constructor`, `Time.C10_last_mention_wins`
* C11: `Time.C11_reachable`, `Time.C11_round_trip`, `Time.C11_text`, `Time.C11_text_injective`
* C12: `Time.C12_bind_accepts`, `Time.C12_bind_reads`, `Time.C12_bind_value`, `Time.C12_exact`, `Time.C12_refuses`
* C13: `Time.C13_digits_survive`, `Time.C13_time`
* C14: `Time.C14_accepts_clock`, `Time.C14_accepts_only_clock`
* C15: `Time.C15_counterexample`, `Time.C15_only_midnight_partial`, `Time.C15_other_partial`
* C16: `Bind.C16_from`, `Bind.C16_timeframe`
* C17: `C17_bind_keywords`, `C17_bind_types`, `C17_invalid_text`, `C17_target_keywords`
* C18: `C18_bind_set_operator`, `C18_target_set_operator`, `C18_uninitialised`, `C18_unknown_keyword`
* C19: `C19_compare`, `C19_lookup`
* C20: `C20_bind_counterexample`, `C20_bind_index_partial`, `C20_target_contains`, `C20_target_index`, `C20_zero`
* C21: `SearchScope.C21_counterexample`, `SearchScope.C21_number`, `SearchScope.C21_reader`, `SearchScope.C21_target_rule`, `SearchScope.C21_target_text`, `SearchScope.C21_uri_text_partial`
* C22: `Rules.C22_counterexample`, `Rules.C22_read`, `Rules.C22_rules_partial`
* C23: `Net.C23_bind_value`, `Net.C23_expected`, `Net.C23_history`, `Net.C23_valid`
* C24: `Net.C24_all_or_nothing`, `Net.C24_counterexample`, `Net.C24_labels_partial`
* C25: `Net.C25_counterexample`, `Net.C25_partial`
* C26: `Sec.C26_bind_accepts`, `Sec.C26_bind_value`, `Sec.C26_from_int`, `Sec.C26_from_text`, `Sec.C26_negative_text`, `Sec.C26_prints_number`, `Sec.C26_words`
* C27: `Sec.C27_counterexample`, `Sec.C27_exact_partial`, `Sec.C27_never_rises_partial`
* C28: `Sec.C28_bind_count`, `Sec.C28_bind_value`, `Sec.C28_by_name`, `Sec.C28_by_number_partial`, `Sec.C28_counterexample`, `Sec.C28_round_trip`
* C29: `Attr.C29_bind_type`, `Attr.C29_counterexample`, `Attr.C29_empty_value_counterexample`, `Attr.C29_refused`, `Attr.C29_round_trip_partial`, `Uri.C29_exact`
* C30: `Attr.C30_constructors`, `Attr.C30_counterexample`, `Attr.C30_default`, `Attr.C30_inheritance_counterexample`, `Attr.C30_keyword_partial`, `Uri.C30_uri_partial`
* C31: `Attr.C31_contains_partial`, `Attr.C31_counterexample`, `Attr.C31_entries_partial`
* C32: `Attr.C32_ascii`, `Attr.C32_beyond_ascii`, `Attr.C32_identifier`, `Attr.C32_type`
* C33: `DN.C33_again`, `DN.C33_constructors`, `DN.C33_print`, `DN.C33_set`, `DN.C33_set_keyword`
* C34: `DN.C34_bind_constructors`, `DN.C34_bind_entries`, `DN.C34_bind_invariant`, `DN.C34_contains`, `DN.C34_target_constructors`, `DN.C34_target_entries`, `DN.C34_target_invariant`
* C35: `DN.C35_bind_partial`, `DN.C35_counterexample`, `DN.C35_push_pop_partial`, `DN.C35_removes`, `DN.C35_target`, `DN.C35_target_push_pop`
* C36: `DN.C36_bind_partial`, `DN.C36_counterexample`, `DN.C36_good`, `DN.C36_short`, `DN.C36_syntax_partial`, `DN.C36_target_partial`
* C37: `Oid.C37_constructors`, `Oid.C37_contains`, `Oid.C37_entries`, `Oid.C37_invariant`, `Oid.C37_keyword_kept`, `Oid.C37_several`, `Oid.C37_single`
* C38: `Uri.C38_attrs_partial`, `Uri.C38_counterexample`, `Uri.C38_counterexample_scope`, `Uri.C38_dn`, `Uri.C38_filter`, `Uri.C38_filter_set`, `Uri.C38_scope_partial`, `Uri.C38_text`
* C39: `Uri.C39_counterexample`, `Uri.C39_counterexample_group`, `Uri.C39_counterexample_scope`, `Uri.C39_pair`, `Uri.C39_round_trip_partial`, `Uri.C39_text_partial`
* C40: `Filter.C40_counterexample`, `Filter.C40_counterexample_short`, `Filter.C40_parse_partial`, `Filter.C40_read_partial`, `Filter.C40_round_trip`, `Filter.C40_text`
* C41: `Filter.C41_content`, `Filter.C41_counterexample`, `Filter.C41_numbers`, `Filter.C41_operation`, `Filter.C41_round_trip_partial`, `Filter.C41_text`, `Filter.C41_unnamed`
* C42: `Filter.C42_counterexample`, `Filter.C42_counterexample_rule`, `Filter.C42_list_partial`, `Filter.C42_rule_partial`, `Filter.C42_single`
* C43: `Rules.C43_contains`, `Rules.C43_content`, `Rules.C43_invariant`, `Rules.C43_pop`, `Rules.C43_push`, `Rules.C43_push_many`
* C44: `Rules.C44_counterexample`, `Rules.C44_first_partial`, `Rules.C44_single_partial`
* C45: `Rules.C45_counterexample`, `Rules.C45_distinct_partial`, `Rules.C45_kept`, `Rules.C45_rule`
* C46: `Bind.C46_condition`, `Bind.C46_counterexample`, `Bind.C46_cut_partial`, `Bind.C46_empty`, `Bind.C46_readable_partial`, `Bind.C46_stray`, `Bind.C46_succeeds`
* C47: `Bind.C47_entries`, `Bind.C47_kept`, `Bind.C47_meaning`
* C48: `Bind.C48_counterexample`, `Bind.C48_entries_partial`, `Bind.C48_pop`, `Bind.C48_push`
* C49: `PB.C49_content`, `PB.C49_invariant`, `PB.C49_pop`, `PB.C49_push`, `PB.C49_push_many`
* C50: `PB.C50_make`, `PB.C50_parts`, `PB.C50_text`
* C51: `Ins.C51_fixed`, `Ins.C51_label`, `Ins.C51_lists`, `Ins.C51_rules`, `Ins.C51_targets`
* C52: `Ins.C52_condensed_partial`, `Ins.C52_counterexample`, `Ins.C52_each`, `Ins.C52_push`
* C53: `Ins.C53_counterexample`, `Ins.C53_front_partial`, `Ins.C53_no_error`, `Ins.C53_readable_partial`
* C54: `Misc.C54_ascii_partial`, `Misc.C54_blanks_partial`, `Misc.C54_counterexample`, `Misc.C54_exact_partial`
* C55: `Misc.C55_at_most_one`, `Misc.C55_exact`, `Misc.C55_plain`, `Misc.C55_short`, `Misc.C55_undo`
* C56: `Misc.C56_equal`, `Misc.C56_exact`, `Misc.C56_symmetric`
* C57: `C57_counterexample`, `C57_fixed_keyword_partial`, `C57_history_partial`, `C57_target_valid`
* C58: `Net.C58_bind_value_partial`, `Net.C58_counterexample`
* C59: `Oid.C59_counterexample`, `Oid.C59_good_values`, `Oid.C59_values_partial`
* C60: `Filter.C60_comma_partial`, `Filter.C60_counterexample`, `Filter.C60_last`, `Filter.C60_semicolon_partial`
* C61: `Rules.C61_counterexample`, `Rules.C61_list_partial`, `Rules.C61_single`
* C62: `Rules.C62_target`, `Rules.C62_target_valid`
* C63: `Rules.C63_counterexample`, `Rules.C63_readable_partial`
* C64: `Bind.C64_counterexample`, `Bind.C64_days_partial`
* C65: `Bind.C65_counterexample`, `Bind.C65_unread_partial`
* C66: `Bind.C66_counterexample`, `Bind.C66_known_partial`, `Bind.C66_unknown_partial`
* C67: `PB.C67_counterexample`, `PB.C67_parts_partial`, `PB.C67_read_partial`
* C68: `PB.C68_fronts`, `PB.C68_set`
* C69: `Ins.C69_counterexample`, `Ins.C69_parts_partial`
* C70: `Ins.C70_counterexample`, `Ins.C70_label_partial`, `Ins.C70_targets_partial`
* C71: `Builders.C71_bind`, `Builders.C71_counterexample`, `Builders.C71_target_partial`
* C72: `Builders.C72_bind_counterexample`, `Builders.C72_bind_partial`, `Builders.C72_bind_unusable`, `Builders.C72_target_counterexample`, `Builders.C72_target_partial`, `Builders.C72_target_unusable`
* C73: `Builders.C73_bind_partial`, `Builders.C73_counterexample`, `Builders.C73_missing`, `Builders.C73_target_partial`
* C74: `Builders.C74_counterexample`, `Builders.C74_method`, `Builders.C74_numbers_partial`
* C75: `Bind.C75_counterexample`, `Bind.C75_meaning_partial`, `Bind.C75_negation_counterexample`, `Bind.C75_quotes_counterexample`
* C76: `Reading.C76_bytes_counterexample`, `Reading.C76_counterexample`, `Reading.C76_written_partial`
* C77: `Reading.C77_bind`, `Reading.C77_bind_cut`, `Reading.C77_bind_says`, `Reading.C77_instruction`, `Reading.C77_instruction_says`, `Reading.C77_last`, `Reading.C77_permission`, `Reading.C77_permission_says`, `Reading.C77_refused`, `Reading.C77_targets`, `Reading.C77_targets_says`, `Single.C77_bind_one`, `Single.C77_filter`, `Single.C77_operation`, `Single.C77_operations`, `Single.C77_pair`, `Single.C77_permission_one`, `Single.C77_rule_one`, `Single.C77_single`, `Single.C77_target_one`, `Single.C77_uri`
* C78: `Filter.C78_contains`, `Filter.C78_counterexample`, `Filter.C78_kept`, `Filter.C78_list_partial`, `Filter.C78_read_partial`
* C79: `C79_commas`, `C79_counterexample_operations`, `C79_counterexample_permissions`, `C79_operations_partial`, `C79_permissions_partial`, `C79_texts_dropped`
* C80: `Rules.C80_attributes`, `Rules.C80_filter`, `Rules.C80_identifiers`, `Rules.C80_names`, `Rules.C80_operations`, `Rules.C80_scope`, `Rules.C80_type`, `Rules.C80_value`
* C81: `Uri.C81_counterexample`, `Uri.C81_last`, `Uri.C81_list_partial`, `Uri.C81_order`, `Uri.C81_text`, `Uri.C81_zero`
* C82: `Uri.C82_counterexample`, `Uri.C82_keyword_partial`, `Uri.C82_reported`, `Uri.C82_rule`
* C83: `Attr.C83_attribute`, `Attr.C83_counterexample`, `Attr.C83_counterexample_made`, `Attr.C83_counterexample_zero`, `Attr.C83_made`, `Attr.C83_pair_partial`, `Attr.C83_text_last`, `Attr.C83_value_partial`
* C84: `Bind.C84_address`, `Bind.C84_attribute`, `Bind.C84_days`, `Bind.C84_factor`, `Bind.C84_host`, `Bind.C84_method`, `Bind.C84_names`, `Bind.C84_single`, `Bind.C84_time`, `Bind.C84_type`, `Bind.C84_value`
* C85: `Err.C85_errorf`, `Err.C85_reported`
* C86: `Err.C86_about`, `Err.C86_besides`, `Err.C86_complete_partial`, `Err.C86_counterexample`, `Err.C86_counterexample_extra`, `Err.C86_sides`
* C87: `Compare.C87_addresses`, `Compare.C87_clocks`, `Compare.C87_counterexample`, `Compare.C87_days`, `Compare.C87_factors_partial`, `Compare.C87_hosts`, `Compare.C87_inheritances`, `Compare.C87_levels`, `Compare.C87_methods`, `Compare.C87_names`, `Compare.C87_permissions`, `Compare.C87_rights_partial`, `Compare.C87_scopes`
* C88: `Whole.C88_counterexample`, `Whole.C88_text_shows_all_partial`, `Whole.C88_values_counterexample`, `Whole.C88_witnesses_made`
* C89: `Uri.C89_counterexample`, `Uri.C89_counterexample_parts`, `Uri.C89_exact_partial`, `Uri.C89_read`
* C90: `PB.C90_counterexample`, `PB.C90_cut_partial`, `PB.C90_readable_partial`, `PB.C90_reads`, `PB.C90_refuses`
* C91: `Alias.C91_apart_partial`, `Alias.C91_copies`, `Alias.C91_counterexample`, `Alias.C91_inheritance`, `Alias.C91_made`, `Alias.C91_only_clock`, `Alias.C91_receiver`, `Alias.C91_returned`, `Alias.C91_unset`
* C92: `Alias.C92_counterexample`, `Alias.C92_kept_partial`, `Alias.C92_list_made`, `Alias.C92_list_twice`, `Alias.C92_lists_counterexample`, `Alias.C92_lists_partial`, `Alias.C92_only_clock`, `Alias.C92_rule_changes`, `Alias.C92_rule_made`, `Alias.C92_rules_counterexample`, `Alias.C92_rules_partial`
* C93: `Globals.C93_bind`, `Globals.C93_changes`, `Globals.C93_counterexample`, `Globals.C93_ordinary`, `Globals.C93_start`, `Globals.C93_target`, `Globals.C93_untouched_partial`
* C94: `Reports.C94_bind_partial`, `Reports.C94_counterexample`, `Reports.C94_counterexample_bind`, `Reports.C94_kind`, `Reports.C94_kind_bind`, `Reports.C94_kind_unset`, `Reports.C94_target_partial`, `Reports.C94_unset`, `Reports.C94_uri_list`
* C95: `Reports.C95_default`, `Reports.C95_identifiers`, `Reports.C95_names`
* C96: `Piece.C96_bind_history`, `Piece.C96_bind_marks`, `Piece.C96_bind_partial`, `Piece.C96_chain_counterexample`, `Piece.C96_chain_partial`, `Piece.C96_counterexample`, `Piece.C96_init_partial`, `Piece.C96_target`, `Piece.C96_target_history`, `Piece.C96_target_marks`, `Piece.C96_wipe_counterexample`
* C97: `Piece.C97_category_counterexample`, `Piece.C97_category_partial`, `Piece.C97_contexts`, `Piece.C97_id_counterexample`, `Piece.C97_id_partial`, `Piece.C97_len`, `Piece.C97_operator_counterexample`, `Piece.C97_operator_partial`, `Piece.C97_target_id`, `Piece.C97_target_valid`
* C98: `Back.C98_ascii_counterexample`, `Back.C98_bind_partial`, `Back.C98_calm`, `Back.C98_counterexample`, `Back.C98_target_calm`, `Back.C98_target_counterexample`, `Back.C98_target_partial`
* C99: `Back.C99_back_partial`, `Back.C99_counterexample`, `Back.C99_lost_counterexample`, `Back.C99_reads_partial`, `Back.C99_split`
* C100: `Back.C100_back_partial`, `Back.C100_counterexample`, `Back.C100_split`, `Back.C100_text_partial`
* C101: `Find.C101_attributes`, `Find.C101_bind_names_partial`, `Find.C101_counterexample`, `Find.C101_filters`, `Find.C101_identifiers_partial`, `Find.C101_instructions_partial`, `Find.C101_operations`, `Find.C101_permission_rules_partial`, `Find.C101_strangers_partial`, `Find.C101_target_names`, `Find.C101_target_rules`, `Find.C101_texts`
* C102: `Length.C102_addresses`, `Length.C102_bind_tables`, `Length.C102_counterexample_days`, `Length.C102_counterexample_levels`, `Length.C102_days_partial`, `Length.C102_host_names`, `Length.C102_levels_partial`, `Length.C102_no_table`, `Length.C102_single`, `Length.C102_target_tables_partial`
* C103: `Parts.C103_attribute_partial`, `Parts.C103_counterexample`, `Parts.C103_filter_partial`, `Parts.C103_text`, `Parts.C103_value`
* C104: `Cast.C104_counterexample`, `Cast.C104_known_partial`, `Cast.C104_rules`, `Cast.C104_stacks`
* C105: `Cast.C105_bits`, `Cast.C105_counterexample`, `Cast.C105_package`, `Cast.C105_powers_partial`, `Cast.C105_types_partial`
* C106: `Layout.C106_counterexample`, `Layout.C106_default`, `Layout.C106_layout_partial`, `Layout.C106_paren`, `Layout.C106_settings`, `Layout.C106_stack`, `Layout.C106_targets_partial`, `Layout.C106_targets_settings`, `Layout.C106_tight`, `Layout.C106_twice`, `Layout.C106_words`
* C107: `Reset.C107_attributes_partial`, `Reset.C107_bind`, `Reset.C107_counterexample`, `Reset.C107_oid`, `Reset.C107_target`
* C108: `Edit.C108_counterexample`, `Edit.C108_insert_counterexample`, `Edit.C108_places`, `Edit.C108_readonly`, `Edit.C108_shows_partial`, `Edit.C108_switch`, `Edit.C108_targets`, `Edit.C108_targets_readonly`
* C109: `Valid.C109_counterexample`, `Valid.C109_days_partial`, `Valid.C109_hosts`, `Valid.C109_identifiers`, `Valid.C109_pairs_partial`, `Valid.C109_uris`, `Valid.C109_values`
* C110: `Crash.C110_bind_partial`, `Crash.C110_condition_partial`, `Crash.C110_counterexample`, `Crash.C110_instruction_partial`, `Crash.C110_permission_bind_partial`
* C111: `Scheme.C111_again_partial`, `Scheme.C111_assigned_partial`, `Scheme.C111_constant_partial`, `Scheme.C111_counterexample`, `Scheme.C111_restored_counterexample`, `Scheme.C111_same_partial`
* C112: `Share.C112_alone_partial`, `Share.C112_apart_partial`, `Share.C112_counterexample`, `Share.C112_own_iff`, `Share.C112_says`
* C113: `Nest.C113_counterexample`, `Nest.C113_iff`, `Nest.C113_index`, `Nest.C113_itself`, `Nest.C113_make`, `Nest.C113_paren`, `Nest.C113_partial`, `Nest.C113_pop`, `Nest.C113_push`, `Nest.C113_push_iff`, `Nest.C113_replace`, `Nest.C113_tree`
* C114: `Nest.C114_counterexample`, `Nest.C114_frame_partial`, `Nest.C114_shows`
* C115: `Held.C115_always`, `Held.C115_counterexample`, `Held.C115_frame`, `Held.C115_keyword_iff`, `Held.C115_others`, `Held.C115_partial`, `Held.C115_push_iff`, `Held.C115_returns`, `Held.C115_unknown`
* C116: `Heap.C116_apart`, `Heap.C116_counterexample`, `Heap.C116_new`, `Heap.C116_other`, `Heap.C116_partial`, `Heap.C116_set`
* C117: `Heap.C117_complete`, `Heap.C117_counterexample`, `Heap.C117_once`, `Heap.C117_partial`, `Heap.C117_push`, `Heap.C117_set`
* C118: `Heap.C118_counterexample`, `Heap.C118_entries`, `Heap.C118_frame`, `Heap.C118_partial`, `Heap.C118_push`
* C119: `Unset.C119_counterexample`, `Unset.C119_days_partial`, `Unset.C119_filters_partial`, `Unset.C119_hosts_partial`, `Unset.C119_pairs_partial`, `Unset.C119_permission_bind_rules_partial`, `Unset.C119_values`
* C120: `Within.C120_bind_names_partial`, `Within.C120_counterexample`, `Within.C120_identifiers_partial`, `Within.C120_parts`, `Within.C120_target_rules_partial`, `Within.C120_valid`
* C121: `AsText.C121_addresses_partial`, `AsText.C121_counterexample`, `AsText.C121_operations_partial`, `AsText.C121_target_rules`, `AsText.C121_texts`
* C122: `Prints.C122_counterexample`, `Prints.C122_identifiers_partial`, `Prints.C122_inheritances_partial`, `Prints.C122_pairs`, `Prints.C122_pairs_partial`, `Prints.C122_read_partial`
* C123: `BindPrints.C123_context`, `BindPrints.C123_counterexample`, `BindPrints.C123_instruction`, `BindPrints.C123_made_partial`, `BindPrints.C123_permission_bind`, `BindPrints.C123_read`, `BindPrints.C123_rule`
* C124: `InTurn.C124_addresses_partial`, `InTurn.C124_bind_names_partial`, `InTurn.C124_bind_rules_partial`, `InTurn.C124_counterexample`, `InTurn.C124_filters`, `InTurn.C124_hosts_partial`, `InTurn.C124_levels_partial`, `InTurn.C124_pairs_partial`, `InTurn.C124_permission_parts_partial`, `InTurn.C124_permission_rules_partial`, `InTurn.C124_target_names_partial`, `InTurn.C124_target_rules_partial`, `InTurn.C124_values`
* C125: `Decide.C125_back_partial`, `Decide.C125_counterexample`, `Decide.C125_cut_partial`, `Decide.C125_legible_partial`, `InForce.C125_case_counterexample`, `InForce.C125_shown_partial`
* C126: `InForce.C126_case_counterexample`, `InForce.C126_counterexample`, `InForce.C126_instruction_partial`, `InForce.C126_no_more_partial`, `InForce.C126_shown_partial`
* C127: `Given.C127_bind_rules`, `Given.C127_gives`, `Given.C127_instruction`, `Given.C127_instructions`, `Given.C127_rules`, `Given.C127_targets`
* C128: `Applies.C128_back_partial`, `Applies.C128_counterexample`, `Applies.C128_distinct_partial`, `Applies.C128_no_less_partial`
* C129: `Placeholders.C129_bind_partial`, `Placeholders.C129_counterexample`, `Placeholders.C129_inside`, `Placeholders.C129_target_partial`, `Placeholders.C129_texts`
* C130: `OneWay.C130_bind_rules`, `OneWay.C130_instruction`, `OneWay.C130_instructions`, `OneWay.C130_permission`, `OneWay.C130_rules`, `OneWay.C130_rules_pop`, `OneWay.C130_targets`
* C131: `Order.C131_bind_partial`, `Order.C131_counterexample`, `Order.C131_days`, `Order.C131_levels`, `Order.C131_rights`, `Order.C131_rules_partial`, `Order.C131_targets_partial`
* C132: `ListText.C132_back_partial`, `ListText.C132_counterexample`, `ListText.C132_lines_partial`, `ListText.C132_tells_partial`
* C133: `Again.C133_attributes_partial`, `Again.C133_bind`, `Again.C133_bind_names`, `Again.C133_counterexample`, `Again.C133_days`, `Again.C133_filters_partial`, `Again.C133_instructions_partial`, `Again.C133_ips`, `Again.C133_levels_partial`, `Again.C133_oids_partial`, `Again.C133_operations`, `Again.C133_rights`, `Again.C133_rules`, `Again.C133_target_names`, `Again.C133_targets`
* C134: `Letters.C134_counterexample`, `Letters.C134_counterexample_parent`, `Letters.C134_days`, `Letters.C134_inheritance`, `Letters.C134_permission`, `Letters.C134_rights`, `Letters.C134_scopes`, `Letters.C134_security`, `Letters.C134_tables`, `Letters.C134_values`, `Letters.C134_words`
* C135: `Moments.C135_clock`, `Moments.C135_days`, `Moments.C135_factor`, `Moments.C135_frames`, `Moments.C135_strength`, `Moments.C135_stronger`, `Moments.C135_week`, `Moments.C135_whole_day`
* C136: `Around.C136_bind_partial`, `Around.C136_counterexample`, `Around.C136_counterexample_uri`, `Around.C136_target_partial`
* C137: `Walk.C137_levels`, `Walk.C137_methods`, `Walk.C137_reading`, `Walk.C137_rights`, `Walk.C137_tables`, `Walk.C137_texts`, `Walk.C137_words`
* C138: `Quotes.C138_checked`, `Quotes.C138_counterexample`, `Quotes.C138_kinds`, `Quotes.C138_names_partial`, `Quotes.C138_pairs_partial`, `Quotes.C138_rules_partial`, `Quotes.C138_target_counterexample`, `Quotes.C138_target_kinds`, `Quotes.C138_target_rules_partial`, `Quotes.C138_words`
* C139: `Alone.C139_attribute`, `Alone.C139_bind_partial`, `Alone.C139_clean_partial`, `Alone.C139_counterexample`, `Alone.C139_filters_partial`, `Alone.C139_group_counterexample`, `Alone.C139_operations_partial`, `Alone.C139_parts`, `Alone.C139_rules_partial`, `Alone.C139_targets_partial`
* C140: `Same.C140_conditions`, `Same.C140_counterexample`, `Same.C140_filled`, `Same.C140_identifiers_counterexample`, `Same.C140_identifiers_partial`, `Same.C140_instruction`, `Same.C140_instructions`, `Same.C140_keyword`, `Same.C140_names_partial`, `Same.C140_operation`, `Same.C140_operations`, `Same.C140_permission_bind_rule`, `Same.C140_rules`, `Same.C140_stacks`, `Same.C140_styles_counterexample`, `Same.C140_targets`
* C141: `Growth.C141_address`, `Growth.C141_condensed`, `Growth.C141_counterexample`, `Growth.C141_filter_partial`, `Growth.C141_inheritance`, `Growth.C141_name`, `Growth.C141_operation_partial`, `Growth.C141_operations_partial`, `Growth.C141_pair`
* C142: `Settle.C142_ascii_partial`, `Settle.C142_counterexample`, `Settle.C142_doubles`
* C143: `Stay.C143_addresses_partial`, `Stay.C143_counterexample`, `Stay.C143_days`, `Stay.C143_filters_partial`, `Stay.C143_hosts_partial`, `Stay.C143_inheritances`, `Stay.C143_instructions`, `Stay.C143_ips`, `Stay.C143_names`, `Stay.C143_pairs`, `Stay.C143_permission_bind_rules`, `Stay.C143_permissions`, `Stay.C143_unshift_days`
* C144: `Addr.C144_counterexample`, `Addr.C144_list_partial`, `Addr.C144_mixed`, `Addr.C144_only_partial`, `Addr.C144_taken_partial`
* C145: `InsForce.C145_clean_partial`, `InsForce.C145_counterexample`, `InsForce.C145_no_more_partial`, `InsForce.C145_permits_partial`
* C146: `RulesForce.C146_at_once_partial`, `RulesForce.C146_bind_rules_partial`, `RulesForce.C146_bounds_partial`, `RulesForce.C146_counterexample`, `RulesForce.C146_no_less_partial`, `RulesForce.C146_onto_partial`, `RulesForce.C146_targets_partial`, `RulesForce.C146_usable_partial`
* C147: `TakenOut.C147_bind_rules`, `TakenOut.C147_insert`, `TakenOut.C147_instructions`, `TakenOut.C147_permission_bind_rules`, `TakenOut.C147_permits`, `TakenOut.C147_remove`, `TakenOut.C147_replace`, `TakenOut.C147_target_remove`, `TakenOut.C147_target_rules`
* C148: `LastFirst.C148_bind_rules`, `LastFirst.C148_bind_rules_stop`, `LastFirst.C148_instructions`, `LastFirst.C148_permission_bind_rules`, `LastFirst.C148_target_names`, `LastFirst.C148_target_rules`
* C149: `Alike.C149_contexts_partial`, `Alike.C149_counterexample`, `Alike.C149_hash_partial`, `Alike.C149_lists_partial`, `Alike.C149_rules_partial`, `Alike.C149_same_text`, `Alike.C149_targets_partial`

## Disagreements between code and property

Each is proved in Lean by a theorem named `..._counterexample...`, or stated in the theorem named.

* **C08** (Reading inheritance text never crashes). Fails: parseInheritance indexes past the end when the first ] is the last byte. Proved: it panics exactly on those texts.
* **C15** (Constructing a TimeOfDay from bad text does not yield a usable time). Fails: any text that is no clock time gives a valid TimeOfDay that prints 0000. Proved instead that it can never be another time.
* **C20** (Method maps expose only real operators). Holds for target rule methods. Fails for bind rule methods: numbers are taken modulo 256 (257 finds Eq); C20_bind_index_partial gives the exact behaviour.
* **C21** (Search scopes round trip through their text). Fails for LDAP URI text: the subordinate scope is written base and read back as base. Proved for all other scopes, and for the target rule notation of all scopes.
* **C22** (Target scope rules only from real scopes). Fails for values above four: SearchScope(5).Eq() is valid and prints an empty scope. Proved: every defined scope gives a usable rule with the right text, the zero scope none, and Ne never does.
* **C24** (Host names are taken whole or not at all). All-or-nothing is proved in full. The labels claim fails for the documented letters a-z and A-Z: bytes that are ISO 8859-1 letters are taken too; proved with these letters included.
* **C25** (Host names respect the documented length limit). Fails both ways: Valid squares the number of labels instead of counting characters. Proved: accepted exactly with 2 to 15 labels; names of 2 to 15 labels within 253 characters are accepted and printed unchanged.
* **C27** (Strength factors never rise from unusable input). Fails: bad text resets a factor to 0, text starting with a number above 64 bits gives 256, and a foreign type gives 1 on a nil factor. Proved: no rise from text up to 19 bytes, or from foreign types on a non-nil factor.
* **C28** (Authentication methods resolve by name and by number consistently). Names are proved in full. Numbers fail for EXTERNAL and DIGEST-MD5, which are swapped; proved for all others.
* **C29** (Attribute/bind-type pairs round trip). Fails in two ways: a value spelled like a bind type in another letter case is printed in capitals, and an empty value is accepted (printing it panics). Proved: bind types, all other values, and exact refusal otherwise.
* **C30** (The bind keyword asked for is the one obtained). Fails: AttributeBindTypeOrValue.Parse passes its keyword slice as one argument, and inheritance drops the keyword, so groupattr becomes userattr. Proved for parseATBTV, plain pairs in bind rules, and userattr everywhere.
* **C31** (Attribute lists hold no duplicates). Fails: TAs and UAs bind the push policy to the zero value, so it never sees the entries. Proved: exact content after any history, and Contains is right.
* **C35** (Popping a list returns what was pushed last). Fails for bind DN lists that hold an LDAP URI: Pop removes it and returns a zero name. Proved for names, and in full for target lists.
* **C36** (Malformed distinguished names in rule text are refused). Fails: a text without any = is taken as a DN, and only the alias texts with two schemes are told apart. Proved: exactly what is accepted and refused.
* **C38** (LDAP URIs print every component they hold). Fails: attributes are only printed next to a filter, and the scope subordinate prints as base. Proved in full for the name and the filter, for attributes next to a filter, and for the other scopes.
* **C39** (LDAP URI text round trip). Fails: a filter with a question mark is cut there, subordinate is read as base, and a groupdn name is read as userdn. Proved for userdn names, the other scopes and filters without question mark; texts for every keyword and scope; attribute pairs.
* **C40** (Attribute filter text round trip). Fails: an empty filter is accepted by the reader, and AttributeFilter.Parse refuses texts below five bytes such as cn:x. Proved: text, round trip for every valid name and non-empty filter, exactly what is read and refused; Parse for clean filters.
* **C41** (Attribute filter operations keep their operation and their filters). Fails: white space in a filter is condensed. Proved: the text of every operation, the content after any history of pushes, the operation; round trip for filters without such white space.
* **C42** (Filters may contain any text). Fails in lists and rules: commas, semicolons and the words add= and delete= in a filter are taken for syntax. Proved in full for single operations with clean filters; for lists and rules without these texts in filters.
* **C44** (Target attributes are read completely). Fails: every turn of the loop reads the first value, so cn || sn is read as cn || cn. Proved: exactly what is read, and correctness for a single value.
* **C45** (Reading target rules reports the first unreadable rule). Fails when two rules have one keyword: the second is dropped without being read. Proved in full for distinct keywords, and in general that the first rule of each keyword is read.
* **C46** (Reading bind rules preserves their logical meaning). Fails: an unreadable condition ends the loop without error, so it and all entries after it in its stack are dropped (ssf >= "71" AND dayofweek = "xyz" is read as ssf >= "71"). Proved: exact meaning and rules of the result for every tree; the full claim when all conditions can be read, and that such trees are read unless the reading crashes (C110).
* **C48** (Bind rule lists accept only usable bind contexts). Fails: the error of Valid is overwritten, so a rule without operator or expression is accepted if its keyword is known. Proved: exactly what is accepted, over any history.
* **C52** (Instruction lists hold no duplicate instructions). Fails: contains condenses the white space of the candidate only, so an instruction whose text is not its own condensed form (label with two spaces, or with a byte above 127) is accepted any number of times. Proved: distinct for texts that are condensed, and what each push does.
* **C53** (Parsing an instruction loses no permission bind rule). Fails: an unreadable permission bind rule and everything after it are dropped without error, and so is a second target rule with the keyword of an earlier one. Proved when everything can be read and the keywords differ; exactly which permission bind rules are left; that no error is ever reported.
* **C54** (White space condensing is harmless). Fails above ASCII: condenseWHSP re-encodes every byte above 127 as a character. Proved in full for ASCII text; the exact result (C54_exact_partial) and the absence of tabs, line feeds and double spaces for every text.
* **C57** (A rule's operator is always one its keyword permits). Fails when the keyword of a bind rule is changed after its operator (userdn > ...). Holds while the keyword is fixed, and for target rules through Valid.
* **C58** (A dns bind value is a host name). Fails for the text <invalid_fqdn_or_label>, which is accepted and gives an empty name. Proved for every other value.
* **C59** (Object identifier values are all kept or the rule is refused). Fails: a value that cannot be read, and all values behind it, are dropped without error as soon as one value came before. Proved: exactly what is kept; nothing is lost when all values can be read.
* **C60** (A list of filter operations prints as it was written). Fails for semicolons: the list that was read prints with commas. Proved for commas, and for semicolons after SetDelimiter.
* **C61** (Values of a rule are quoted once). Fails for a single value with the style of separate quotation: it has no marks at all. Proved for two and more values, for the other style, and for values that are no lists.
* **C63** (Reading one target rule reports an unreadable value). Fails: the error is ignored and the rule is returned with the unread value. Proved for readable rules.
* **C64** (Weekdays and Weekend give the days they name). Fails for numbers such as 257, which are taken modulo 256 (see C20). Proved with numbers taken modulo 256. The numerals 62 and 65 in the documentation are not the values of these days, which are 124 and 130.
* **C65** (Reading one bind rule reads its value). Fails: ParseBindRule returns the value of the parser unread. Proved that keyword, operator and everything but the value are as reading would leave them.
* **C66** (Bind rules made in one step are valid exactly if their parts fit). Fails for unknown keywords: BR("blarg", Eq, x) passes Valid. Proved for all known keywords; for the others it is said what BR makes of them.
* **C67** (A valid permission bind rule is usable). Fails: Valid looks only whether there is a bind context, not whether it is valid or empty. Proved: both parts are there; usable for rules that were read.
* **C69** (A valid instruction is complete). Fails: Valid looks only whether the pointer is nil. Proved: nothing but nil instructions is refused.
* **C70** (The text of an instruction shows its label). Fails: quotation marks in the label are printed as they are. Proved for labels without quotation mark.
* **C71** (Tables of rule methods list the operators ACIv3 allows). Bind rules proved in full. Fails for target rules: the tables of filter operations list Ne, which targattrfilters does not allow. Proved for all other types.
* **C72** (Rule methods make the rule they are listed for). Fails for URIs (a name with role keyword, or a pair with keyword groupattr, gives a userdn or groupdn rule) and for Ne of filter operations, which gives no rule. Proved for everything else, and for bind and target rules alike that unusable values make no valid rules.
* **C73** (A valid table of rule methods makes valid rules). Fails: a zero pair filled by Set has a valid rule for Eq (with a keyword that does not exist) and none for Ne; Ne of filter operations. Proved as an equivalence for values with a known keyword and all URIs; for filter operations exactly when Valid reports no error; and that no missing method is called.
* **C74** (Numbers find the methods of the names beside them). Fails: the documentation numbers Le as four and Gt as five, the constants the other way round, so four finds Gt. Proved for the other numbers, short and long names, and that each finds the method of this operator.
* **C75** (The text of bind rules shows their meaning). Fails: a stack within a stack is printed without parentheses unless they were asked for, so And(a,Or(b,c)) and Or(And(a,b),c) print the same; quotation marks in a value are printed as they are. Not(And(a,b)) and And(Not(a),b) print the same as well (C75_negation_counterexample). Proved (C75_meaning_partial) when no value has a quotation mark, no disjunction without parentheses is within a conjunction and neither is negated without parentheses: then the text shows the meaning, where NOT binds more tightly than AND and AND more tightly than OR.
* **C76** (Texts are read as they are written). Fails: the whole text is condensed, labels and values included, and bytes beyond ASCII are encoded a second time. Proved for ASCII texts without tabs, line feeds and runs of blanks between quotation marks.
* **C78** (Filter operations are read as written). Fails: a pair with nothing after its colon is left out without an error, so add=cn: is read as an operation without filters. Proved with such pairs left out, for operations and for lists; the invariant of lists is proved in full.
* **C79** (Values given at creation are the values pushed). Fails: texts given to AFOs and PBRs are dropped, because they go to the stack and not to Push. Proved for arguments that are not texts; if the stack ends a call at the first refusal, for the arguments before it.
* **C81** (A URI holds the parts given to it). Fails for lists of attributes: they are added to those that are there. Proved for the other parts, the order and texts.
* **C82** (The rule of a URI has the documented keyword). Fails: a pair with the keyword groupattr makes a rule with userdn or groupdn, while Keyword says groupattr; Keyword (uri.go:331) asks whether the pair has a part and makeBindRule (uri.go:270) whether it has a keyword, so that with the empty pair of UAT() Keyword gives the keyword of the name and the rule is a userattr rule. Proved for other pairs and for names; what Keyword gives is proved exactly (C82_reported).
* **C83** (Parts of an attribute pair are not replaced). False for texts: a later text replaces the bind type or value (C83_counterexample, C83_counterexample_made), and a zero value forgets what it was given before (C83_counterexample_zero). Proved: the attribute is never replaced and is the first one given (C83_attribute); without texts the first bind type or value is kept (C83_value_partial); otherwise the last text decides (C83_text_last). C83_pair_partial and C83_made say the same of pairs and of the constructors.
* **C86** (Error messages are complete). Fails: pushErrorNilOrZero is called without a cause in attr.go, dn.go, filter.go and target.go, and its text wants one (%!v(MISSING)); pushErrorNotUnique and pushErrorBadType take a cause their text does not show; noTBRuleExpressionValues with a nil keyword. Proved for all other calls, and that every message shows what it is about.
* **C87** (Compare tells values apart and knows them again). Fails: reflection takes the number 0 and an empty struct for nothing to compare, so NoAccess and an unset strength factor (which prints 0) differ from themselves. Proved for everything else.
* **C88** (The text of an instruction shows all of it). Fails for labels with a quotation mark, which Set takes unchecked: one rule under a crafted label prints as two rules under the label x. Proved where label and values have no quotation mark, values are quoted once, bind rules are as in C75 and rights are within the ten.
* **C89** (LDAP URI text is read part by part). Fails: an unknown scope, a second part that is no attribute, a fifth part and a missing name are passed over. The exact reading of every text is proved (C89_exact_partial), and that every well-formed text is read.
* **C90** (A permission bind rule that is read says what its text says). Fails with C46: from the first unreadable condition of a stack on, the rest of the stack is dropped without error. Proved for every text without these entries, in full for texts all of whose conditions can be read, and that such texts are read unless the reading crashes (C110).
* **C91** (Changing one value leaves every other value as it was). Fails: copies share storage, so d := AllDN; d.Set("cn=x") changes AllDN. Proved exactly which calls store where: TimeOfDay alone keeps copies apart, unset receivers change nothing else, values that were never copied are independent.
* **C92** (What was made from a value keeps saying what it said). Fails: a rule or list holds the pointer, so a later Set changes its text and can bring in duplicates or other keywords. Proved for what is made, and as long as no method is called on the names or their copies.
* **C93** (How a text is read depends on the text alone). Fails: the aliases are compared with exported variables, so d := SelfDN; d.Set("me") changes which texts are names. Proved exactly for every state, in full for ordinary texts, and for programs that leave the four names alone.
* **C94** (A value reports the keyword of the rules made from it). Fails: AttributeType.Keyword returns nil; a zero pair filled by Set reports userattr and its rule has no known keyword; URIs with a role name, a groupattr pair (C72) or an empty pair (C82). An authentication method has no Keyword. Proved for everything else.
* **C96** (A rule put together step by step is the rule made at once). Fails for bind rules, whose value has no quotation marks until SetQuoteStyle is called, for Init, which leaves a used rule as it is, and for chains on a declared rule: SetKeyword of a bind rule returns an initialized rule without the keyword, and of a target rule only SetExpression returns an initialized rule, so that the keyword is lost. Proved for target rules in full, for keyword, operator and value of bind rules, what every sequence of calls leaves, what a new value and SetQuoteStyle do to the marks, and what every chain returns.
* **C97** (Rules and contexts say about themselves what is documented). Fails: ID of a rule started with Init or read is not set; Category of an initialized rule without keyword is a message; castCop reports operators of go-stackage, as the parser makes, as none, and TargetRule.Valid refuses them. Proved for everything else.
* **C98** (What a value prints is read as that value). Fails: text above ASCII gets longer with every reading, one pair of quotation marks after the other is taken away, and of two schemes one. Proved for all sound values (C98_bind_partial, C98_target_partial), and for every value read from ASCII text without quotation marks, question marks and doubled schemes (C98_calm, C98_target_calm).
* **C99** (Bind rules that are read print as their text). Fails: the quotation marks of a single name in the quotation style 0 are lost, and so are parentheses around the whole and white space within values. Proved: trees whose conditions are read as values with their texts print as they stand in the text (C99_reads_partial); texts of contexts with sound values, whose parts belong together as in C75, are read as the same rules, with the same text and meaning (C99_back_partial), and can be split (C99_split).
* **C100** (An instruction that is printed is read as this instruction). Fails: of several different attributes in a target rule only the first is read (C44), so that the text read again is another one. Proved (C100_back_partial, C100_text_partial): an instruction that shows all of it, that is, whose label and values have no quotation marks or double bars, whose values are sound (C98) and stand between quotation marks, whose target rules have different keywords and whose permission bind rules have different texts, is read from its text as itself, however the text is split; and each such text can be split (C100_split). Missing: all other instructions; and that the parser, which is not modelled, returns such parts.
* **C101** (A list shows and finds what it holds). BindDistinguishedNames.Pop asserts the type BindDistinguishedName only, so that an address (LDAPURI) is removed but not returned. A keyword pushed into a list of object identifiers becomes an entry which Index shows as the zero identifier and which Contains does not find. Instructions.Contains condenses the white space of what is looked for but not of the entries, so that an instruction whose label has doubled white space is not found and can be pushed twice. PermissionBindRules.Contains reads a text first and finds a rule by its text only if the text is read as a rule with this text. A value that is neither an entry nor a text leaves the candidate of Contains empty, so that a list of names that holds an unset address contains every such value.
* **C102** (The length of a value counts its parts). Fails: Day(1) and Level(1), which name no day and no level, are accepted and counted, and an inheritance without levels, whose length is 0, prints level 0. The table of methods of a filter operation has length 2, although only Eq goes with targattrfilters (C71). Proved: days and levels after any history of calls with proper values (C102_days_partial, C102_levels_partial), addresses and host names (C102_addresses, C102_host_names), all other tables (C102_bind_tables, C102_target_tables_partial) and single values (C102_single).
* **C103** (An attribute filter holds the parts given to it). Fails: the text *, which AT accepts as an attribute type, is taken for the filter, and an empty text, which SearchFilter.Set passes over, takes the filter away (C103_counterexample). Proved: of all arguments of AF and of any Set calls, the last that gives an attribute type and the last that gives a filter, where texts are sorted by whether they are attribute names (C103_attribute_partial, C103_filter_partial), and the text (C103_text).
* **C104** (Conversions between the types keep what is stored). Fails: isStack is true of the single types ObjectIdentifier, BindDistinguishedName and TargetDistinguishedName, which are no stacks; castAsCondition of anything that is no rule returns a started condition with an error although an empty one is documented; isStackageCondition accepts a pointer to a condition, which derefC takes for the zero condition (C104_counterexample). Proved: the conversions (C104_stacks, C104_rules) and the questions about all other values (C104_known_partial).
* **C105** (Powers of two and the sizes of numbers are known). Fails: isPowerOfTwo is true of 0 (and of the least integer), and isIUint and isPtr panic for nil (C105_counterexample). Proved: isPowerOfTwo is true exactly of the numbers with one bit at most (C105_bits), so that it is right for positive ones (C105_powers_partial); isIUint and bitSize of all other values (C105_types_partial); the types of the package (C105_package).
* **C106** (The layout of rules does not change what they say). Fails: with a quotation mark in a value, the blank before the closing parenthesis is within quotation marks (C106_counterexample). Proved: for values without quotation marks (C106_layout_partial, C106_targets_partial), what the settings leave alone (C106_settings, C106_targets_settings), the default (C106_default), the shortest text (C106_tight), and that words are read in any letter case (C106_words).
* **C107** (Only an empty list takes another keyword). Fails: a list of attribute types takes userattr and groupattr, which are no keywords of targets, and reports no keyword afterwards (C107_counterexample). Proved: lists of bind DNs (C107_bind), target DNs (C107_target) and object identifiers (C107_oid); attribute types apart from these two words (C107_attributes_partial).
* **C108** (An edited stack holds rules, each in its place). Fails: BindRules.Replace (bind.go:919-933) and insert (bind.go:984-991) do not ask the push policy, so that anything can take the place of an entry (Index then shows nil) and an uninitialized stack or rule can be inserted (C108_counterexample, C108_insert_counterexample). Holds when these two are given fit contexts; the statements on places, on read-only stacks and on target rules hold outright.
* **C109** (A value is valid exactly if its text says something). Fails: UAT() without parts is valid and prints nothing, so does an inheritance of it, and days that have the lowest bit, which is no day, are valid although their text begins with a marker (C109_counterexample). Holds for all other types, for pairs with both parts and for days without that bit.
* **C110** (Reading rules does not crash). Fails: a condition `userattr = "parent[0]"` (levels with nothing behind the bracket) makes `parseInheritance` index an empty text (/repo/levels.go:182), so `ParseBindRules`, `ParsePermissionBindRule` and `Instruction.Parse` panic. So does `userattr = "cn#"`: the rules are printed when they have been read (/repo/bind.go:625), and printing a pair without a value dereferences a nil pointer (/repo/attr.go:225). Proved: a condition crashes exactly if it is an attribute condition with levels and nothing behind them; reading anything crashes only through such a condition or one whose value is a name and the mark; it does crash if the conditions before the levels, or all conditions, can be read.
* **C111** (Names and addresses are local). Fails: `LocalScheme` (/repo/dn.go:23) is called a constant, for reference only, but is an exported variable. A program that assigns it makes every name and address, also those made before, print another scheme, such as that of another host; a name made in the meantime keeps `ldap:///` within its text after the value is restored. Proved: programs that do not assign it are local; after an assignment everything shows the new scheme before a text that does not depend on it; under any scheme that is not empty names survive printing.
* **C112** (What is done to a rule or a list leaves the other rules as they are). Fails for all four types: a rule holds the list itself, and `SetQuoteStyle(0)` stores the quotation of the single values in the list, so that another rule made from the list, which keeps its marks around the whole, prints `""a" || "b""`. `Push` and `Pop` change the rules made before. Proved: the exact text after any such history (the last style of the rule itself decides about the outer marks, the last style of any rule about the inner ones), when the style of another rule changes nothing, that a list used through one rule has exactly one of the two quotations, and that rules which share no list never touch each other.
* **C113** (Whatever was made of bind rules can be printed). Fails: the push policy takes the receiver itself. After `r := And(); r.Push(r)` the method `String` of `r`, and of everything that holds `r`, never ends (`C113_itself`); in Go the stack overflows and the program is killed. `C113_iff` says exactly when printing ends, `C113_push_iff` exactly which push begins a circle. `C113_partial` covers programs without such pushes; `C113_push`, `C113_make`, `C113_pop`, `C113_index`, `C113_replace` and `C113_paren` tie memory to the trees of the other model files.
* **C114** (A call on one stack of bind rules leaves the texts of the others). Fails: a stack that was pushed into another one is held by pointer. After `a := And(r); b := Or(a, r); a.Push(s)` the text of `b` has changed, and `AND` now stands next to `OR` without parentheses. `C114_shows` says that a stack shows its entries as they are when it is printed; `C114_frame_partial` that only calls on stacks a variable contains can change its text.
* **C115** (A list of target rules keeps one rule of each keyword, also when rules change after they were pushed). Fails: SetKeyword on a rule that is in a list can give it the keyword of another rule of the list, or none (t1, t2 pushed, then t2.SetKeyword(Target)). C115_keyword_iff says exactly when it does; C115_partial shows the claim for programs without such calls; length, single occurrence and initialization hold for all programs (C115_always).
* **C116** (What an instruction says changes only by calls on the instruction or on its lists). Fails: an instruction keeps pointers to the rules it was given, so that Shift on the permission of a rule changes every instruction with this permission. C116_partial gives the storage an instruction is made of and shows that its text changes only when some of this is written; that lists are never shared (C116_apart), that calls on one instruction leave the others alone (C116_other), and that Set and ACI in memory do what the tree model says (C116_set, C116_new) holds for all programs.
* **C117** (Lists of permission bind rules stay complete and free of duplicates when rules change after they were pushed). Fails for the texts: a list of rules with allow(read) and allow(read,write) has two rules of the same text after Unshift of the second permission. Completeness (C117_complete), single occurrence of storage (C117_once) and the condition of Push (C117_push) hold for all programs; C117_partial shows that texts differ in programs that change nothing a held rule is made of.
* **C118** (Lists of instructions hold no instruction twice, also when instructions change after they were pushed). False in both parts. Set on an instruction that is in a list (or any call on something it is made of) can give two entries the same text, and since pushPolicy compares the texts of the entries with the condensed text of the candidate, an instruction whose text holds two spaces in a row (or a byte above 127) is taken again and again (C118_counterexample). C118_partial is the claim for programs that change nothing an entry is made of, and condensed texts; C118_push says exactly when a push is taken, C118_entries and C118_frame hold of every program.
* **C119** (IsZero tells whether a value is unset). Fails.  A declared pair is still reported unset after Set gave it an attribute and a value, because Set does not give it a keyword and IsZero looks at the keyword only (its text shows the parts).  An attribute filter with one of its parts, a host name of one label or of more than fifteen, days without a day and a permission bind rule with one of its parts are reported set and print what an unset one prints.  Proved: the claim for the other types and for pairs made at once; for the types where it fails, exactly when IsZero is true and exactly when the text is that of an unset value.
* **C120** (Lists hold valid values only). BindDistinguishedNames takes an LDAPURI as it is, also an unset one. ObjectIdentifiers takes keywords as entries. TargetRules asks only whether the rule is zero and for its keyword, so that a rule without operator or with one the keyword does not allow enters the list (for bind rules see C48). Attribute types, target names, attribute filters, permission bind rules and instructions: the claim holds.
* **C121** (A value may be given as its text). Documented as "or its string equivalent". Holds for attribute types, target names, bind names and attribute filters. The text of an address becomes a name, so that scope, attributes and filter are lost as parts (the printed list is the same). The text of an operation goes through the clean-up of white space (C41). TargetRules takes no text at all, although its documentation says so.
* **C122** (Values can be made and printed without a crash). Printing a pair whose value is empty (AV of the empty text, or the text cn#) dereferences a nil pointer (attr.go:225); fmt writes a report of this crash into the text of an inheritance or an address. OID crashes on a keyword that is nil or of bind rules. Proved: exactly these cases crash.
* **C123** (Bind rules can be printed without a crash). Fails for rules that are made: a rule with a pair that has an attribute and an empty value crashes when it is printed. Proved: exactly the rules and nests with such a complete rule crash; whatever is read (bind rules, permission bind rules, instructions) can be printed.
* **C124** (Arguments may be given together or one after another). Holds for lists of attribute types, object identifiers, filters, operations and instructions, for permissions, days, addresses of hosts and the parts of instructions; attribute filters have the same text either way. Fails (C124_counterexample): in lists of names an empty text, or a name with another keyword, ends the call and hides the arguments behind it; so does a text that cannot be read in lists of permission bind rules, a refused argument of Set of a permission bind rule, and any refused argument in lists of target rules and bind rules if go-stackage ends the call there. Pairs without keyword and inheritances without pair forget what the call before gave them. A host name takes all labels of a call or none. Set of an address forgets the arguments after a text that is an address. The partial theorems say exactly what happens in these cases.
* **C125** (An instruction that is read permits what its text permits). Fails. A condition that cannot be read is dropped without an error, with all entries of its stack behind it, so that `allow(read) ssf >= "71" AND dayofweek = "xyz"` permits reading whenever the first condition holds; the permission bind rules behind an unreadable one are dropped, so that a denial can be lost (C125_counterexample). Also of `deny(read) userattr = "nick#bob"; deny(read) userattr = "nick#Bob";`, all of which can be read, the second denial is dropped (C125_case_counterexample). Proved: what the instruction allows or denies the text does once what reading cuts off is cut off (C125_cut_partial); for legible texts nothing more is allowed or denied, and exactly the same if no rule was dropped as a duplicate (C125_legible_partial), or if the rules are read as rules whose text shows what they mean and no two of them are printed with texts that differ in case alone (C125_shown_partial); the text that a whole instruction prints, when read again, permits what the instruction does (C125_back_partial).
* **C126** (Permission bind rules that are pushed are in force). Fails. `And(a, Or(b, c))` and `Or(And(a, b), c)` print as the same text, so that of two denials with them the second is left out, and where `c` holds alone the list permits what it forbids (C126_counterexample); and rules whose texts differ only in case are taken for the same, whether or not case matters for the value (C126_case_counterexample). Proved: nothing more is ever allowed or denied (C126_no_more_partial), and exactly the same for rules whose text shows how their parts belong together and no two of which differ in case alone (C126_shown_partial, and C126_instruction_partial for instructions).
* **C128** (An instruction that is read applies where its text does). Fails. Of two target rules with one keyword the second is dropped without an error, so that `( targetattr = "cn" )( targetattr = "sn" )` applies also where the second does not hold (C128_counterexample). Proved: the instruction applies wherever its text does (C128_no_less_partial); exactly there if no keyword occurs twice, whether or not the rules can be read (C128_distinct_partial); the text that a whole instruction prints, when read again, applies where the instruction does (C128_back_partial).
* **C129** (Whether the text printed for an unset value is read as a value). The texts are proved (C129_texts). The claim about reading fails (C129_counterexample): dns = "<invalid_fqdn_or_label>" is taken, as a name of no labels, because the reader compares the text with what the name it made prints as, and a name that could not be made prints as just this text. The keywords userdn, groupdn, roledn, target, target_to and target_from take every one of the texts as a distinguished name, and targetfilter takes them as a filter. C129_bind_partial and C129_target_partial say exactly which of the texts each keyword takes, and what it makes of them; all other keywords refuse all of them.
* **C131** (The order in which rules, rights, days and levels are given makes no difference). Proved in full for rights, days and levels. For lists of rules the claim fails because of the checks that keep duplicates out: of two permission bind rules with one text but different meanings (C126) and of two target rules with one keyword (C43) the first one pushed is kept; and a stack that ends a call at a refused argument loses the bind rules behind it. The partial theorems prove it for rules whose text shows their meaning, for target rules with different keywords, and for stacks that go on or have no argument to refuse; the counterexamples show that none of these conditions can simply be left out.
* **C132** (A list of instructions prints one instruction per line and is restored from its lines). Fails for labels with a line feed: one instruction with the label `x"; )<LF>(version 3.0; acl "y` prints as two instructions with the labels x and y do (counterexample). Proved for texts without a line feed (C132_lines_partial, C132_tells_partial), and, for reading back, for instructions that are read from their own texts (C100), with condensed texts, no two of which are equal in any case of letters (C52).
* **C133** (Giving an argument again makes no difference). Proved in full for rights (numbers that fit), days, IP addresses, distinguished names, filter operations, target rules, permission bind rules and bind rules. Fails for attribute types, which are added each time (C31); for levels of an inheritance without an attribute pair, as Shift then returns a value with the last level alone; for instructions whose text is not condensed (C52); for keywords pushed to lists of object identifiers (C37); and for the operation of a filter operation, of which the last one given counts. The partial theorems prove the rest of these cases.
* **C134** (The words of the language are taken in any letter case). Proved for everything but two words. Fails for parent in values of userattr and groupattr rules, because assertBindUGAttr looks for `parent[` as it is written, although the function it calls then takes any letter case (C134_counterexample_parent, C134_inheritance); and for add and delete in filter operations (C134_counterexample).
* **C136** (White space around a value makes no difference). Proved for all values but two kinds. Fails for names that are URIs, that is begin with `ldap:///` and contain a question mark, because they are looked at before white space is removed (C136_counterexample_uri); and for object identifiers, which go to the reader of another package as they are: alike if and as far as that reader ignores white space (C136_counterexample).
* **C138** (A value cannot end its quotation). Fails for names, attribute values and URIs, which take any text: a name can be such that the text of its rule is that of two rules, the second of which holds for anyone (C138_counterexample). Proved for addresses, host names, days, times, methods, strength factors, attribute pairs with a bind type and inheritances of these; for rules of all values exactly where the texts of the value have no mark (C138_rules_partial); names, filters and attribute values have one exactly if one was given. For target rules likewise: proved for scopes and attributes, exact for the others (C138_target_kinds, C138_target_rules_partial), false for names (C138_target_counterexample).
* **C139** (What is read alone is read alike as a part). Fails for permission bind rules (an instruction with a refused one is read without error), target rules (of two with one keyword one is kept), bind rules (alone they keep the text of the value), operations (a list takes quotation marks away twice) and filters (pairs under five bytes are refused alone): C139_counterexample; and for the pair of any condition about groupattr, which no text is read as alone (C139_group_counterexample). Proved for the parts of permission bind rules, addresses and pairs; for rules that are all taken alone; for target rules with different keywords; for keyword, operator and parentheses of bind rules; for operations once the marks are taken away; for filters written tidily.
* **C140** (Values with the same text are interchangeable). Fails for names: a list of names for users takes UDN and refuses GDN, although their texts are the same (C140_counterexample); C140_names_partial has names with the same keyword. Likewise for object identifiers (C140_identifiers_counterexample), and for conditions once the quotation style is changed (C140_styles_counterexample). Target rules: zero or complete, and with a keyword without blanks, which SetKeyword ensures (C140_keyword). Operations: with filters that say something, which pushing ensures (C140_filled).
* **C141** (The text of what is read is not much longer than the text that was read). Fails: bytes above ASCII are encoded again and take two bytes each (C141_counterexample), and operations are printed with spaces around &&. Proved: white space condensing, filters at most double, not at all for ASCII text; operations at most four times, twice for ASCII; lists of operations at most eight times, twice for ASCII; pairs never; names at most 8 bytes, addresses at most 130 and inheritance at most 111 bytes more.
* **C142** (Reading what was printed, again and again, settles). Fails for text above ASCII: the letter é doubles in every round, so that after n rounds the filter has 2^(n+1) bytes in its place (C142_doubles, C142_counterexample). Proved for ASCII text, with a bound on the number of rounds: one for every byte and one more (C142_ascii_partial); one round is not enough, since every round takes one pair of quotation marks.
* **C143** (A valid value stays valid when more is given to it). Fails for attribute filters, host names and LDAP URIs (C143_counterexample): an unset part replaces a set one, a sixteenth label is taken, and a URI without a name replaces one with a name. Proved for them when the arguments are valid, or while the host name has at most fifteen labels (C143_filters_partial, C143_hosts_partial, C143_addresses_partial); for the other kinds in full.
* **C144** (Internet addresses are taken, and only these). Fails in both directions (C144_counterexample): the notation that ends an IPv6 address with an IPv4 address is refused, always (C144_mixed), and two slashes are taken. Proved: every other address, network and pattern is taken, alone and in lists (C144_taken_partial, C144_list_partial); what is taken has the characters of addresses (C144_only_partial).
* **C145** (Instructions that are pushed are in force). Fails (C145_counterexample): of two instructions with one label that deny under And(a, Or(b, c)) and under Or(And(a, b), c), which print alike, the second is left out. Proved: nothing more is allowed or denied (C145_no_more_partial), and exactly the same for instructions whose text shows what they mean and no two of which differ in case or white space alone (C145_clean_partial, C145_permits_partial).
* **C146** (Target rules and bind rules that are pushed are in force). Fails (C146_counterexample): of two target filters the second is left out. The other two witnesses, a target rule and a bind rule after a refused argument, need the stack library to end the call there; the library is not in /repo, so the model allows for both. Proved: C146_no_less_partial, C146_onto_partial, C146_usable_partial, C146_targets_partial, C146_at_once_partial, C146_bounds_partial and C146_bind_rules_partial.
* **C149** (Rules that compare as equal mean the same). Fails (C149_counterexample): And(a, Or(b, c)) and Or(And(a, b), c) compare as equal, and a target rule with quotation marks in its value compares as equal to two target rules. Proved: C149_contexts_partial, C149_rules_partial, C149_lists_partial, C149_targets_partial and, for instructions, C149_hash_partial for rules whose text shows what they mean; C149_same_text in full. SHA-1 is a parameter that is taken to have no collisions.

## Axioms

Printed by `#print axioms` for every theorem in `MANIFEST.json`.

* no axioms (7 theorems): `AsText.C121_target_rules`, `C20_zero`, `Net.C25_counterexample`, `PB.C50_make`, `Reports.C94_kind_unset`, `Reset.C107_counterexample`, `SearchScope.C21_counterexample`.
* `propext` (117 theorems): `Again.C133_attributes_partial`, `Alias.C92_list_made`, `Alias.C92_list_twice`, `Alias.C92_rule_changes`, `Alias.C92_rule_made`, `Alias.C92_rules_counterexample`, `Attr.C30_constructors`, `Attr.C32_beyond_ascii`, `Attr.C83_attribute`, `Attr.C83_counterexample`, `Attr.C83_counterexample_made`, `Attr.C83_value_partial`, `Bind.C47_entries`, `Bind.C47_kept`, `Bind.C47_meaning`, `Bind.C66_counterexample`, `BindPrints.C123_counterexample`, `Builders.C71_counterexample`, `Builders.C72_target_counterexample`, `Builders.C73_missing`, `C18_uninitialised`, `C20_bind_counterexample`, `C57_counterexample`, `C79_permissions_partial`, `Cast.C104_counterexample`, `Cast.C104_rules`, `Cast.C104_stacks`, `Cast.C105_types_partial`, `Compare.C87_counterexample`, `DN.C35_bind_partial`, `DN.C35_counterexample`, `DN.C35_removes`, `DN.C35_target`, `Edit.C108_counterexample`, `Edit.C108_insert_counterexample`, `Edit.C108_readonly`, `Edit.C108_targets_readonly`, `Err.C85_errorf`, `Err.C85_reported`, `Filter.C41_numbers`, `Filter.C41_unnamed`, `Held.C115_counterexample`, `Held.C115_unknown`, `InTurn.C124_addresses_partial`, `InTurn.C124_bind_rules_partial`, `InTurn.C124_filters`, `InTurn.C124_permission_parts_partial`, `InTurn.C124_permission_rules_partial`, `InTurn.C124_target_rules_partial`, `Ins.C69_parts_partial`, `Layout.C106_counterexample`, `Layout.C106_default`, `Layout.C106_paren`, `Layout.C106_settings`, `Layout.C106_stack`, `Layout.C106_targets_settings`, `Layout.C106_twice`, `Length.C102_bind_tables`, `Length.C102_no_table`, `Length.C102_target_tables_partial`, `Letters.C134_security`, `Letters.C134_words`, `Misc.C55_plain`, `Misc.C55_short`, `Moments.C135_clock`, `Moments.C135_factor`, `Net.C23_valid`, `Net.C24_counterexample`, `Oid.C37_single`, `OneWay.C130_bind_rules`, `OneWay.C130_rules_pop`, `OneWay.C130_targets`, `PB.C49_push_many`, `PB.C67_parts_partial`, `Parts.C103_counterexample`, `Parts.C103_value`, `Piece.C96_counterexample`, `Piece.C96_wipe_counterexample`, `Piece.C97_category_counterexample`, `Piece.C97_id_counterexample`, `Piece.C97_operator_counterexample`, `Piece.C97_target_id`, `Piece.C97_target_valid`, `Placeholders.C129_inside`, `Placeholders.C129_texts`, `Reports.C94_counterexample`, `Reports.C94_kind_bind`, `Reports.C94_uri_list`, `Reports.C95_default`, `Reports.C95_identifiers`, `Rules.C43_push_many`, `Rules.C61_counterexample`, `Rules.C61_single`, `RulesForce.C146_onto_partial`, `Same.C140_conditions`, `Same.C140_identifiers_partial`, `Same.C140_keyword`, `Scheme.C111_same_partial`, `SearchScope.C21_number`, `Sec.C27_counterexample`, `Sec.C28_by_name`, `Sec.C28_round_trip`, `Single.C77_bind_one`, `Stay.C143_addresses_partial`, `Stay.C143_counterexample`, `Stay.C143_instructions`, `Stay.C143_names`, `Stay.C143_pairs`, `TakenOut.C147_target_remove`, `Time.C15_other_partial`, `Uri.C38_counterexample_scope`, `Uri.C81_last`, `Uri.C81_order`, `Uri.C81_text`, `Uri.C81_zero`, `Uri.C82_counterexample`, `Valid.C109_uris`.
* `Quot.sound`, `propext` (254 theorems): `Again.C133_bind`, `Again.C133_levels_partial`, `Alias.C91_apart_partial`, `Alias.C91_copies`, `Alias.C91_inheritance`, `Alias.C91_made`, `Alias.C91_only_clock`, `Alias.C91_returned`, `Alias.C91_unset`, `Alias.C92_kept_partial`, `Alias.C92_lists_partial`, `Alias.C92_only_clock`, `Alias.C92_rules_partial`, `Alike.C149_counterexample`, `Alike.C149_targets_partial`, `Alone.C139_parts`, `Around.C136_counterexample_uri`, `AsText.C121_addresses_partial`, `Attr.C30_inheritance_counterexample`, `Attr.C32_ascii`, `Attr.C32_identifier`, `Attr.C32_type`, `Attr.C83_made`, `Attr.C83_pair_partial`, `Attr.C83_text_last`, `Back.C98_ascii_counterexample`, `Back.C99_lost_counterexample`, `Back.C99_split`, `Bind.C46_empty`, `Bind.C46_stray`, `Bind.C65_unread_partial`, `Bind.C75_counterexample`, `BindPrints.C123_context`, `BindPrints.C123_instruction`, `BindPrints.C123_made_partial`, `BindPrints.C123_permission_bind`, `BindPrints.C123_read`, `BindPrints.C123_rule`, `Builders.C71_bind`, `Builders.C71_target_partial`, `Builders.C72_bind_counterexample`, `Builders.C73_counterexample`, `Builders.C74_counterexample`, `C17_bind_keywords`, `C17_bind_types`, `C17_invalid_text`, `C17_target_keywords`, `C18_bind_set_operator`, `C18_target_set_operator`, `C19_compare`, `C57_target_valid`, `C79_commas`, `C79_counterexample_operations`, `C79_counterexample_permissions`, `C79_operations_partial`, `C79_texts_dropped`, `Cast.C104_known_partial`, `Cast.C105_counterexample`, `Cast.C105_package`, `Compare.C87_clocks`, `Compare.C87_days`, `Compare.C87_factors_partial`, `Compare.C87_levels`, `Compare.C87_methods`, `Compare.C87_names`, `Compare.C87_rights_partial`, `Compare.C87_scopes`, `DN.C33_again`, `DN.C36_good`, `DN.C36_short`, `DN.C36_syntax_partial`, `Edit.C108_shows_partial`, `Edit.C108_switch`, `Err.C86_about`, `Err.C86_besides`, `Err.C86_complete_partial`, `Err.C86_sides`, `Filter.C40_counterexample`, `Filter.C41_counterexample`, `Filter.C41_operation`, `Filter.C42_counterexample`, `Filter.C42_counterexample_rule`, `Filter.C60_last`, `Filter.C78_counterexample`, `Given.C127_bind_rules`, `Given.C127_gives`, `Given.C127_instruction`, `Given.C127_instructions`, `Given.C127_rules`, `Given.C127_targets`, `Globals.C93_untouched_partial`, `Growth.C141_condensed`, `Growth.C141_counterexample`, `Growth.C141_filter_partial`, `Growth.C141_operation_partial`, `Growth.C141_operations_partial`, `Heap.C116_counterexample`, `Heap.C117_counterexample`, `InForce.C126_no_more_partial`, `InTurn.C124_bind_names_partial`, `InTurn.C124_levels_partial`, `InTurn.C124_target_names_partial`, `InTurn.C124_values`, `Ins.C52_each`, `Ins.C53_no_error`, `Ins.C69_counterexample`, `Ins.C70_label_partial`, `Ins.C70_targets_partial`, `InsForce.C145_no_more_partial`, `LastFirst.C148_instructions`, `LastFirst.C148_permission_bind_rules`, `Layout.C106_tight`, `Layout.C106_words`, `Length.C102_counterexample_days`, `Length.C102_counterexample_levels`, `Length.C102_single`, `Letters.C134_counterexample`, `Letters.C134_counterexample_parent`, `Letters.C134_inheritance`, `Letters.C134_permission`, `Letters.C134_scopes`, `Letters.C134_tables`, `Levels.C06_zero`, `Levels.C08_counterexample`, `ListText.C132_counterexample`, `ListText.C132_lines_partial`, `ListText.C132_tells_partial`, `Misc.C54_blanks_partial`, `Misc.C54_counterexample`, `Misc.C55_at_most_one`, `Misc.C55_exact`, `Misc.C56_exact`, `Misc.C56_symmetric`, `Moments.C135_strength`, `Moments.C135_stronger`, `Nest.C113_index`, `Nest.C113_tree`, `Nest.C114_counterexample`, `Nest.C114_shows`, `Oid.C37_constructors`, `Oid.C37_contains`, `Oid.C37_invariant`, `Oid.C37_keyword_kept`, `Oid.C37_several`, `OneWay.C130_instruction`, `OneWay.C130_instructions`, `OneWay.C130_rules`, `Order.C131_levels`, `PB.C49_content`, `PB.C49_invariant`, `PB.C49_pop`, `PB.C49_push`, `PB.C50_text`, `PB.C67_counterexample`, `PB.C67_read_partial`, `PB.C68_set`, `Piece.C97_category_partial`, `Piece.C97_contexts`, `Prints.C122_identifiers_partial`, `Prints.C122_inheritances_partial`, `Prints.C122_pairs`, `Prints.C122_pairs_partial`, `Quotes.C138_counterexample`, `Quotes.C138_names_partial`, `Quotes.C138_rules_partial`, `Quotes.C138_target_counterexample`, `Quotes.C138_target_rules_partial`, `Quotes.C138_words`, `Reading.C77_bind`, `Reading.C77_instruction`, `Reading.C77_last`, `Reading.C77_permission`, `Reading.C77_refused`, `Reading.C77_targets`, `Reports.C94_counterexample_bind`, `Reports.C94_kind`, `Reports.C94_unset`, `Reset.C107_attributes_partial`, `Reset.C107_oid`, `Rights.C01_disposition_kept`, `Rights.C01_disposition_made`, `Rights.C01_unknown_ignored`, `Rights.C01_unknown_not_held`, `Rights.C02_reachable`, `Rights.C05_valid`, `Rules.C44_single_partial`, `Rules.C61_list_partial`, `Same.C140_instructions`, `Same.C140_operations`, `Same.C140_targets`, `Scheme.C111_again_partial`, `Scheme.C111_assigned_partial`, `Sec.C26_bind_accepts`, `Sec.C26_bind_value`, `Sec.C26_from_int`, `Sec.C26_from_text`, `Sec.C26_negative_text`, `Sec.C26_prints_number`, `Sec.C26_words`, `Sec.C27_never_rises_partial`, `Sec.C28_bind_count`, `Sec.C28_by_number_partial`, `Sec.C28_counterexample`, `Settle.C142_counterexample`, `Settle.C142_doubles`, `Share.C112_alone_partial`, `Share.C112_apart_partial`, `Share.C112_says`, `Stay.C143_days`, `Stay.C143_filters_partial`, `Stay.C143_inheritances`, `Stay.C143_ips`, `Stay.C143_permission_bind_rules`, `Stay.C143_permissions`, `Stay.C143_unshift_days`, `TakenOut.C147_bind_rules`, `TakenOut.C147_insert`, `TakenOut.C147_instructions`, `TakenOut.C147_permission_bind_rules`, `TakenOut.C147_permits`, `TakenOut.C147_remove`, `TakenOut.C147_target_rules`, `Time.C11_round_trip`, `Time.C11_text`, `Time.C11_text_injective`, `Time.C15_counterexample`, `Time.C15_only_midnight_partial`, `Unset.C119_counterexample`, `Unset.C119_days_partial`, `Uri.C38_attrs_partial`, `Uri.C38_counterexample`, `Uri.C38_dn`, `Uri.C38_filter`, `Uri.C38_filter_set`, `Uri.C38_scope_partial`, `Uri.C38_text`, `Uri.C39_counterexample_group`, `Uri.C39_counterexample_scope`, `Uri.C39_round_trip_partial`, `Uri.C39_text_partial`, `Uri.C81_list_partial`, `Uri.C82_reported`, `Valid.C109_counterexample`, `Valid.C109_pairs_partial`, `Walk.C137_levels`, `Walk.C137_methods`, `Walk.C137_reading`, `Walk.C137_tables`, `Walk.C137_texts`, `Walk.C137_words`, `Whole.C88_counterexample`, `Whole.C88_values_counterexample`, `Whole.C88_witnesses_made`, `Within.C120_identifiers_partial`.
* `Classical.choice`, `Quot.sound`, `propext` (454 theorems): `Addr.C144_counterexample`, `Addr.C144_list_partial`, `Addr.C144_mixed`, `Addr.C144_only_partial`, `Addr.C144_taken_partial`, `Again.C133_bind_names`, `Again.C133_counterexample`, `Again.C133_days`, `Again.C133_filters_partial`, `Again.C133_instructions_partial`, `Again.C133_ips`, `Again.C133_oids_partial`, `Again.C133_operations`, `Again.C133_rights`, `Again.C133_rules`, `Again.C133_target_names`, `Again.C133_targets`, `Alias.C91_counterexample`, `Alias.C91_receiver`, `Alias.C92_counterexample`, `Alias.C92_lists_counterexample`, `Alike.C149_contexts_partial`, `Alike.C149_hash_partial`, `Alike.C149_lists_partial`, `Alike.C149_rules_partial`, `Alike.C149_same_text`, `Alone.C139_attribute`, `Alone.C139_bind_partial`, `Alone.C139_clean_partial`, `Alone.C139_counterexample`, `Alone.C139_filters_partial`, `Alone.C139_group_counterexample`, `Alone.C139_operations_partial`, `Alone.C139_rules_partial`, `Alone.C139_targets_partial`, `Applies.C128_back_partial`, `Applies.C128_counterexample`, `Applies.C128_distinct_partial`, `Applies.C128_no_less_partial`, `Around.C136_bind_partial`, `Around.C136_counterexample`, `Around.C136_target_partial`, `AsText.C121_counterexample`, `AsText.C121_operations_partial`, `AsText.C121_texts`, `Attr.C29_bind_type`, `Attr.C29_counterexample`, `Attr.C29_empty_value_counterexample`, `Attr.C29_refused`, `Attr.C29_round_trip_partial`, `Attr.C30_counterexample`, `Attr.C30_default`, `Attr.C30_keyword_partial`, `Attr.C31_contains_partial`, `Attr.C31_counterexample`, `Attr.C31_entries_partial`, `Attr.C83_counterexample_zero`, `Back.C100_back_partial`, `Back.C100_counterexample`, `Back.C100_split`, `Back.C100_text_partial`, `Back.C98_bind_partial`, `Back.C98_calm`, `Back.C98_counterexample`, `Back.C98_target_calm`, `Back.C98_target_counterexample`, `Back.C98_target_partial`, `Back.C99_back_partial`, `Back.C99_counterexample`, `Back.C99_reads_partial`, `Bind.C16_from`, `Bind.C16_timeframe`, `Bind.C46_condition`, `Bind.C46_counterexample`, `Bind.C46_cut_partial`, `Bind.C46_readable_partial`, `Bind.C46_succeeds`, `Bind.C48_counterexample`, `Bind.C48_entries_partial`, `Bind.C48_pop`, `Bind.C48_push`, `Bind.C64_counterexample`, `Bind.C64_days_partial`, `Bind.C65_counterexample`, `Bind.C66_known_partial`, `Bind.C66_unknown_partial`, `Bind.C75_meaning_partial`, `Bind.C75_negation_counterexample`, `Bind.C75_quotes_counterexample`, `Bind.C84_address`, `Bind.C84_attribute`, `Bind.C84_days`, `Bind.C84_factor`, `Bind.C84_host`, `Bind.C84_method`, `Bind.C84_names`, `Bind.C84_single`, `Bind.C84_time`, `Bind.C84_type`, `Bind.C84_value`, `Builders.C72_bind_partial`, `Builders.C72_bind_unusable`, `Builders.C72_target_partial`, `Builders.C72_target_unusable`, `Builders.C73_bind_partial`, `Builders.C73_target_partial`, `Builders.C74_method`, `Builders.C74_numbers_partial`, `C18_unknown_keyword`, `C19_lookup`, `C20_bind_index_partial`, `C20_target_contains`, `C20_target_index`, `C57_fixed_keyword_partial`, `C57_history_partial`, `Cast.C105_bits`, `Cast.C105_powers_partial`, `Compare.C87_addresses`, `Compare.C87_hosts`, `Compare.C87_inheritances`, `Compare.C87_permissions`, `Crash.C110_bind_partial`, `Crash.C110_condition_partial`, `Crash.C110_counterexample`, `Crash.C110_instruction_partial`, `Crash.C110_permission_bind_partial`, `DN.C33_constructors`, `DN.C33_print`, `DN.C33_set`, `DN.C33_set_keyword`, `DN.C34_bind_constructors`, `DN.C34_bind_entries`, `DN.C34_bind_invariant`, `DN.C34_contains`, `DN.C34_target_constructors`, `DN.C34_target_entries`, `DN.C34_target_invariant`, `DN.C35_push_pop_partial`, `DN.C35_target_push_pop`, `DN.C36_bind_partial`, `DN.C36_counterexample`, `DN.C36_target_partial`, `Decide.C125_back_partial`, `Decide.C125_counterexample`, `Decide.C125_cut_partial`, `Decide.C125_legible_partial`, `Edit.C108_places`, `Edit.C108_targets`, `Err.C86_counterexample`, `Err.C86_counterexample_extra`, `Filter.C40_counterexample_short`, `Filter.C40_parse_partial`, `Filter.C40_read_partial`, `Filter.C40_round_trip`, `Filter.C40_text`, `Filter.C41_content`, `Filter.C41_round_trip_partial`, `Filter.C41_text`, `Filter.C42_list_partial`, `Filter.C42_rule_partial`, `Filter.C42_single`, `Filter.C60_comma_partial`, `Filter.C60_counterexample`, `Filter.C60_semicolon_partial`, `Filter.C78_contains`, `Filter.C78_kept`, `Filter.C78_list_partial`, `Filter.C78_read_partial`, `Find.C101_attributes`, `Find.C101_bind_names_partial`, `Find.C101_counterexample`, `Find.C101_filters`, `Find.C101_identifiers_partial`, `Find.C101_instructions_partial`, `Find.C101_operations`, `Find.C101_permission_rules_partial`, `Find.C101_strangers_partial`, `Find.C101_target_names`, `Find.C101_target_rules`, `Find.C101_texts`, `Globals.C93_bind`, `Globals.C93_changes`, `Globals.C93_counterexample`, `Globals.C93_ordinary`, `Globals.C93_start`, `Globals.C93_target`, `Growth.C141_address`, `Growth.C141_inheritance`, `Growth.C141_name`, `Growth.C141_pair`, `Heap.C116_apart`, `Heap.C116_new`, `Heap.C116_other`, `Heap.C116_partial`, `Heap.C116_set`, `Heap.C117_complete`, `Heap.C117_once`, `Heap.C117_partial`, `Heap.C117_push`, `Heap.C117_set`, `Heap.C118_counterexample`, `Heap.C118_entries`, `Heap.C118_frame`, `Heap.C118_partial`, `Heap.C118_push`, `Held.C115_always`, `Held.C115_frame`, `Held.C115_keyword_iff`, `Held.C115_others`, `Held.C115_partial`, `Held.C115_push_iff`, `Held.C115_returns`, `InForce.C125_case_counterexample`, `InForce.C125_shown_partial`, `InForce.C126_case_counterexample`, `InForce.C126_counterexample`, `InForce.C126_instruction_partial`, `InForce.C126_shown_partial`, `InTurn.C124_counterexample`, `InTurn.C124_hosts_partial`, `InTurn.C124_pairs_partial`, `Ins.C51_fixed`, `Ins.C51_label`, `Ins.C51_lists`, `Ins.C51_rules`, `Ins.C51_targets`, `Ins.C52_condensed_partial`, `Ins.C52_counterexample`, `Ins.C52_push`, `Ins.C53_counterexample`, `Ins.C53_front_partial`, `Ins.C53_readable_partial`, `Ins.C70_counterexample`, `InsForce.C145_clean_partial`, `InsForce.C145_counterexample`, `InsForce.C145_permits_partial`, `LastFirst.C148_bind_rules`, `LastFirst.C148_bind_rules_stop`, `LastFirst.C148_target_names`, `LastFirst.C148_target_rules`, `Layout.C106_layout_partial`, `Layout.C106_targets_partial`, `Length.C102_addresses`, `Length.C102_days_partial`, `Length.C102_host_names`, `Length.C102_levels_partial`, `Letters.C134_days`, `Letters.C134_rights`, `Letters.C134_values`, `Levels.C06_all_levels`, `Levels.C06_from_constructor`, `Levels.C06_last_mention_wins`, `Levels.C07_from_constructor`, `Levels.C07_round_trip`, `Levels.C08_panics_partial`, `Levels.C09_accepted`, `Levels.C09_result`, `ListText.C132_back_partial`, `Misc.C54_ascii_partial`, `Misc.C54_exact_partial`, `Misc.C55_undo`, `Misc.C56_equal`, `Moments.C135_days`, `Moments.C135_frames`, `Moments.C135_week`, `Moments.C135_whole_day`, `Nest.C113_counterexample`, `Nest.C113_iff`, `Nest.C113_itself`, `Nest.C113_make`, `Nest.C113_paren`, `Nest.C113_partial`, `Nest.C113_pop`, `Nest.C113_push`, `Nest.C113_push_iff`, `Nest.C113_replace`, `Nest.C114_frame_partial`, `Net.C23_bind_value`, `Net.C23_expected`, `Net.C23_history`, `Net.C24_all_or_nothing`, `Net.C24_labels_partial`, `Net.C25_partial`, `Net.C58_bind_value_partial`, `Net.C58_counterexample`, `Oid.C37_entries`, `Oid.C59_counterexample`, `Oid.C59_good_values`, `Oid.C59_values_partial`, `OneWay.C130_permission`, `Order.C131_bind_partial`, `Order.C131_counterexample`, `Order.C131_days`, `Order.C131_rights`, `Order.C131_rules_partial`, `Order.C131_targets_partial`, `PB.C50_parts`, `PB.C68_fronts`, `PB.C90_counterexample`, `PB.C90_cut_partial`, `PB.C90_readable_partial`, `PB.C90_reads`, `PB.C90_refuses`, `Parts.C103_attribute_partial`, `Parts.C103_filter_partial`, `Parts.C103_text`, `Piece.C96_bind_history`, `Piece.C96_bind_marks`, `Piece.C96_bind_partial`, `Piece.C96_chain_counterexample`, `Piece.C96_chain_partial`, `Piece.C96_init_partial`, `Piece.C96_target`, `Piece.C96_target_history`, `Piece.C96_target_marks`, `Piece.C97_id_partial`, `Piece.C97_len`, `Piece.C97_operator_partial`, `Placeholders.C129_bind_partial`, `Placeholders.C129_counterexample`, `Placeholders.C129_target_partial`, `Prints.C122_counterexample`, `Prints.C122_read_partial`, `Quotes.C138_checked`, `Quotes.C138_kinds`, `Quotes.C138_pairs_partial`, `Quotes.C138_target_kinds`, `Reading.C76_bytes_counterexample`, `Reading.C76_counterexample`, `Reading.C76_written_partial`, `Reading.C77_bind_cut`, `Reading.C77_bind_says`, `Reading.C77_instruction_says`, `Reading.C77_permission_says`, `Reading.C77_targets_says`, `Reports.C94_bind_partial`, `Reports.C94_target_partial`, `Reports.C95_names`, `Reset.C107_bind`, `Reset.C107_target`, `Rights.C01_from_constructor`, `Rights.C01_last_mention_wins`, `Rights.C02_text`, `Rights.C02_text_injective`, `Rights.C03_round_trip`, `Rights.C03_round_trip_exact`, `Rights.C04_reader`, `Rights.C05_len`, `Rules.C22_counterexample`, `Rules.C22_read`, `Rules.C22_rules_partial`, `Rules.C43_contains`, `Rules.C43_content`, `Rules.C43_invariant`, `Rules.C43_pop`, `Rules.C43_push`, `Rules.C44_counterexample`, `Rules.C44_first_partial`, `Rules.C45_counterexample`, `Rules.C45_distinct_partial`, `Rules.C45_kept`, `Rules.C45_rule`, `Rules.C62_target`, `Rules.C62_target_valid`, `Rules.C63_counterexample`, `Rules.C63_readable_partial`, `Rules.C80_attributes`, `Rules.C80_filter`, `Rules.C80_identifiers`, `Rules.C80_names`, `Rules.C80_operations`, `Rules.C80_scope`, `Rules.C80_type`, `Rules.C80_value`, `RulesForce.C146_at_once_partial`, `RulesForce.C146_bind_rules_partial`, `RulesForce.C146_bounds_partial`, `RulesForce.C146_counterexample`, `RulesForce.C146_no_less_partial`, `RulesForce.C146_targets_partial`, `RulesForce.C146_usable_partial`, `Same.C140_counterexample`, `Same.C140_filled`, `Same.C140_identifiers_counterexample`, `Same.C140_instruction`, `Same.C140_names_partial`, `Same.C140_operation`, `Same.C140_permission_bind_rule`, `Same.C140_rules`, `Same.C140_stacks`, `Same.C140_styles_counterexample`, `Scheme.C111_constant_partial`, `Scheme.C111_counterexample`, `Scheme.C111_restored_counterexample`, `SearchScope.C21_reader`, `SearchScope.C21_target_rule`, `SearchScope.C21_target_text`, `SearchScope.C21_uri_text_partial`, `Sec.C27_exact_partial`, `Sec.C28_bind_value`, `Settle.C142_ascii_partial`, `Share.C112_counterexample`, `Share.C112_own_iff`, `Single.C77_filter`, `Single.C77_operation`, `Single.C77_operations`, `Single.C77_pair`, `Single.C77_permission_one`, `Single.C77_rule_one`, `Single.C77_single`, `Single.C77_target_one`, `Single.C77_uri`, `Stay.C143_hosts_partial`, `TakenOut.C147_replace`, `Time.C10_from_constructor`, `Time.C10_last_mention_wins`, `Time.C11_reachable`, `Time.C12_bind_accepts`, `Time.C12_bind_reads`, `Time.C12_bind_value`, `Time.C12_exact`, `Time.C12_refuses`, `Time.C13_digits_survive`, `Time.C13_time`, `Time.C14_accepts_clock`, `Time.C14_accepts_only_clock`, `Unset.C119_filters_partial`, `Unset.C119_hosts_partial`, `Unset.C119_pairs_partial`, `Unset.C119_permission_bind_rules_partial`, `Unset.C119_values`, `Uri.C09_exact`, `Uri.C29_exact`, `Uri.C30_uri_partial`, `Uri.C39_counterexample`, `Uri.C39_pair`, `Uri.C81_counterexample`, `Uri.C82_keyword_partial`, `Uri.C82_rule`, `Uri.C89_counterexample`, `Uri.C89_counterexample_parts`, `Uri.C89_exact_partial`, `Uri.C89_read`, `Valid.C109_days_partial`, `Valid.C109_hosts`, `Valid.C109_identifiers`, `Valid.C109_values`, `Walk.C137_rights`, `Whole.C88_text_shows_all_partial`, `Within.C120_bind_names_partial`, `Within.C120_counterexample`, `Within.C120_parts`, `Within.C120_target_rules_partial`, `Within.C120_valid`.
