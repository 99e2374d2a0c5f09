{"id": "C01", "title": "Permission bits track exactly the grants and revocations made", "statement": "Start from any permission made by Allow or Deny and apply any sequence of Shift and Unshift calls whose arguments are rights, right names or in-range integers. Afterwards Positive(r) for a single right r is true exactly when the last call that mentioned r (directly, by name in any letter case, or inside all) was a grant. Calls that mention unknown names change nothing, and no call changes whether the permission is an allow or a deny.", "quantifier": "every finite history of Shift/Unshift calls with arbitrary argument lists, every starting permission", "why_tests_cant": "Histories are unbounded and the state is a shared 16-bit word; a table of sample calls cannot rule out one order in which a bit leaks from one right to another.", "anchors": ["rights.go: permission.shift, permission.unshift, permission.positive, Permission.Shift, Permission.Unshift, Permission.Positive, Allow, Deny, newPermission", "shifty.go: newRights", "rights.go: rightsNames"]}
{"id": "C02", "title": "The text of a permission determines it", "statement": "Two valid permissions built from the ten defined rights render the same text exactly when they have the same disposition and grant the same rights. No right is printed that is not held and no held right is omitted; 'all' is printed only for the nine non-proxy rights together, 'all,proxy' only for all ten, and 'none' only when no right is held.", "quantifier": "every subset of the ten rights, both dispositions", "why_tests_cant": "The rendering has four special cases on top of the bit loop; two different privilege sets colliding on one text would be a privilege escalation that spot checks on a few sets can miss.", "anchors": ["rights.go: Permission.String, Right.String, Permission.Disposition, rightsMap"]}
{"id": "C03", "title": "Rendered permissions parse back to themselves", "statement": "For every valid permission over the ten defined rights, handing the disposition and the comma-separated names of its text back to the permission reader yields a valid permission with the same disposition and exactly the same rights.", "quantifier": "every subset of the ten rights, both dispositions, every letter case of the names", "why_tests_cant": "Round trips over a product of rights, dispositions and spellings of names are quantified statements.", "anchors": ["rights.go: Permission.String, rightsNames", "parse.go: unpackageAntlrPermission, Permission.Parse"]}
{"id": "C04", "title": "The permission reader grants exactly what was listed, or fails", "statement": "Given the token output of the ACI parser (an allow flag that may be absent, and a list of right names), the permission reader returns an error exactly when the flag is absent. Otherwise it returns a permission whose disposition is the flag and whose rights are exactly the union of the listed names, in any letter case; words that name no right grant nothing.", "quantifier": "every token list, every flag", "why_tests_cant": "Lists are unbounded and names arbitrary.", "anchors": ["parse.go: unpackageAntlrPermission"]}
{"id": "C05", "title": "Permission length counts the granted rights", "statement": "Len of a valid permission equals the number of distinct rights held, and Valid fails exactly for permissions that have no storage or no disposition.", "quantifier": "every permission reachable from Allow, Deny or the zero value", "why_tests_cant": "The count is over all 1024 states times the two dispositions and the nil cases.", "anchors": ["rights.go: Permission.Len, Permission.Valid, Permission.isZero, Permission.IsZero"]}
{"id": "C06", "title": "Inheritance levels track exactly the levels switched on and off", "statement": "Apply any sequence of Shift and Unshift calls with level constants, level numbers 0 to 9 or their decimal strings to an inheritance expression. Level n is Positive afterwards exactly when the last call that mentioned n (directly or through all levels) was a Shift; other values are ignored.", "quantifier": "every finite history of Shift/Unshift calls on any initialised inheritance", "why_tests_cant": "Unbounded histories; off-by-one between the level number and its bit is only visible for particular combinations.", "anchors": ["levels.go: inheritance.shift, inheritance.unshift, inheritance.positive, Inheritance.Shift, Inheritance.Unshift, Inheritance.Positive, levelMap, levelNumbers"]}
{"id": "C07", "title": "Inheritance text round trip", "statement": "For every non-empty set of levels and every attribute#bind-type (or attribute#value) pair that itself round-trips, parsing the text parent[...].pair yields an inheritance with exactly those levels and that pair, and prints the same text again.", "quantifier": "every non-empty subset of levels 0-9, every round-tripping pair", "why_tests_cant": "A product of 1023 level sets with arbitrary byte strings.", "anchors": ["levels.go: Inheritance.String, parseInheritance, inheritance.shift", "attr.go: parseATBTV, AttributeBindTypeOrValue.String"]}
{"id": "C08", "title": "Reading inheritance text never crashes", "statement": "Parsing any string as an inheritance expression returns a value or an error; it never panics.", "quantifier": "every byte string", "why_tests_cant": "Panic freedom quantifies over all inputs; fuzzing only samples.", "anchors": ["levels.go: parseInheritance"]}
{"id": "C09", "title": "Malformed inheritance text is refused", "statement": "Parsing succeeds only for text that starts with parent[ (any case), contains a ] followed by a dot, lists at least one known level between the brackets, and has a parsable pair after the dot; the resulting levels are exactly the known levels that were listed.", "quantifier": "every byte string", "why_tests_cant": "Acceptance conditions quantify over all inputs.", "anchors": ["levels.go: parseInheritance"]}
{"id": "C10", "title": "Day sets track exactly the days switched on and off", "statement": "Apply any sequence of Shift and Unshift calls with day constants, day numbers 1-7 or day names to a DayOfWeek. Day d is Positive afterwards exactly when the last call mentioning d was a Shift; unknown names and numbers are ignored.", "quantifier": "every finite history of Shift/Unshift calls", "why_tests_cant": "Unbounded histories over shared storage.", "anchors": ["time.go: DayOfWeek.Shift, DayOfWeek.Unshift, DayOfWeek.Positive, matchStrDoW, matchIntDoW, matchDoW, DoW"]}
{"id": "C11", "title": "Day set text round trip", "statement": "For every non-empty set of days, the text of the set parses back (spaces and letter case ignored) to a set with exactly the same days, and two sets print the same text only if they are the same set.", "quantifier": "every subset of the seven days; every casing and spacing of the text", "why_tests_cant": "Quantifies over sets and spellings.", "anchors": ["time.go: DayOfWeek.String, DayOfWeek.parse, parseDoW, Day.String, matchStrDoW"]}
{"id": "C12", "title": "A list of days is read completely or refused", "statement": "Reading a comma-separated list of days either fails or yields exactly the set of the days named; it fails as soon as one entry is not a day name or number. No entry is silently dropped.", "quantifier": "every byte string", "why_tests_cant": "All inputs.", "anchors": ["time.go: parseDoW", "parse.go: assertBindDayOfWeek"]}
{"id": "C13", "title": "Clock times survive storage", "statement": "For every clock time from 0000 to 2359, and for 2400, the TimeOfDay built from its four digits prints the same four digits.", "quantifier": "all 1441 clock times", "why_tests_cant": "A two-byte split encoding with a special case for midnight; the property ranges over all clock times.", "anchors": ["time.go: ToD, TimeOfDay.Set, TimeOfDay.String, timeOfDay.set, assertToD"]}
{"id": "C14", "title": "Bad clock times are refused", "statement": "A bind rule read from text with keyword timeofday is accepted only if its value is four digits HHMM with HH at most 23 and MM at most 59, or 2400.", "quantifier": "every byte string", "why_tests_cant": "All inputs.", "anchors": ["parse.go: assertBindTimeOfDay", "time.go: timeOfDay.set"]}
{"id": "C15", "title": "Constructing a TimeOfDay from bad text does not yield a usable time", "statement": "ToD given text that is not a clock time must not produce a value that passes Valid and prints as some clock time.", "quantifier": "every byte string that is not a clock time", "why_tests_cant": "All inputs.", "anchors": ["time.go: ToD, timeOfDay.set, TimeOfDay.Valid, TimeOfDay.IsZero"]}
{"id": "C16", "title": "Timeframe means not before and strictly before", "statement": "Timeframe(a, b) is a conjunction of exactly two timeofday conditions, >= a and < b in that order; evaluating it at clock time t gives true exactly when a <= t < b, for all clock times.", "quantifier": "all clock times a, b, t", "why_tests_cant": "Range over all triples; the boundary cases are the ones that get swapped.", "anchors": ["time.go: Timeframe, TimeOfDay.Ge, TimeOfDay.Lt", "bind.go: And"]}
{"id": "C17", "title": "Keyword names resolve to their keyword in any letter case", "statement": "Looking up a bind or target keyword by name succeeds exactly when the name equals one of the defined keyword names up to letter case, and then returns the keyword whose own text is that name. No name resolves to two keywords and no unknown name resolves to any keyword.", "quantifier": "every byte string", "why_tests_cant": "All strings in every casing, including multi-byte characters that fold to ASCII letters.", "anchors": ["kw.go: matchBKW, matchTKW, matchBT, BindKeyword.String, TargetKeyword.String, BindType.String, idBindKeyword, idTargetKeyword"]}
{"id": "C18", "title": "Only permitted operators ever reach a rule", "statement": "For every keyword, the operators that can be set on a rule of that keyword through SetOperator are exactly those the ACIv3 documentation allows: all six for timeofday and ssf, equality only for targetscope and targattrfilters, equality and inequality for everything else. A refused operator leaves the rule as it was.", "quantifier": "every keyword, every operator value, every textual spelling of an operator, every prior rule state", "why_tests_cant": "Decision table over keywords, 256 operator values and arbitrary strings and rule states.", "anchors": ["cop.go: keywordAllowsComparisonOperator, matchCOP, ComparisonOperator.Valid", "bind.go: BindRule.SetOperator", "target.go: TargetRule.SetOperator"]}
{"id": "C19", "title": "Operator lookup by text is faithful", "statement": "Looking up a comparison operator by symbol, context name or description (any letter case) returns the operator carrying that text, and returns the invalid operator for any other text.", "quantifier": "every byte string", "why_tests_cant": "All strings.", "anchors": ["cop.go: matchCOP, ComparisonOperator.String, ComparisonOperator.Context, ComparisonOperator.Description"]}
{"id": "C20", "title": "Method maps expose only real operators", "statement": "Index or Contains on a BindRuleMethods or TargetRuleMethods map finds an entry exactly when the argument denotes (as operator, number or text) an operator whose method was registered. No other integer finds an entry.", "quantifier": "every map, every operator value, every machine integer, every string", "why_tests_cant": "Integer conversion in the lookup wraps modulo 256; the property ranges over all integers.", "anchors": ["bind.go: BindRuleMethods.Index, BindRuleMethods.index, BindRuleMethods.Contains", "target.go: TargetRuleMethods.Index, TargetRuleMethods.index, TargetRuleMethods.Contains"]}
{"id": "C21", "title": "Search scopes round trip through their text", "statement": "For every defined search scope, reading its target-rule text gives the same scope back, and reading its LDAP URI text gives the same scope back.", "quantifier": "every defined scope, both notations, every letter case", "why_tests_cant": "Quantifies over scopes and spellings; two notations share one reader.", "anchors": ["scope.go: strToScope, SearchScope.String, SearchScope.standard, SearchScope.targetScope, intToScope"]}
{"id": "C22", "title": "Target scope rules only from real scopes", "statement": "SearchScope.Eq yields a usable targetscope rule exactly for defined scopes and Ne never yields a usable rule.", "quantifier": "every scope value", "why_tests_cant": "All 256 values of the underlying type.", "anchors": ["scope.go: SearchScope.Eq, SearchScope.Ne, SearchScope.TRM"]}
{"id": "C23", "title": "IP lists keep accepted addresses once and in order", "statement": "After any sequence of Set calls on an IPAddr, the list holds exactly the syntactically acceptable addresses that were offered, each once, in order of first offer. Every held address consists only of the characters of IPv4 or IPv6 notation and wildcards.", "quantifier": "every history of Set calls with arbitrary byte strings", "why_tests_cant": "Unbounded histories and inputs.", "anchors": ["net.go: IPAddr.Set, ipAddrs.set, ipAddrs.unique, isValidIP, isV4, isV6"]}
{"id": "C24", "title": "Host names are taken whole or not at all", "statement": "Setting labels on an FQDN either appends all labels of every argument or leaves the value unchanged; an accepted label is non-empty, at most 63 bytes and made only of letters, digits, inner hyphens or a wildcard.", "quantifier": "every history of Set calls with arbitrary byte strings", "why_tests_cant": "Unbounded inputs; limits at 63 and 253 are classic off-by-one territory.", "anchors": ["net.go: FQDN.Set, labels.set, processLabel, validLabel, appendDomainName"]}
{"id": "C25", "title": "Host names respect the documented length limit", "statement": "An FQDN accepted by Valid never has a textual form longer than 253 characters, and every host name of at least two valid labels not exceeding 253 characters is accepted by Valid.", "quantifier": "every list of labels", "why_tests_cant": "Length accounting is cumulative over unboundedly many labels.", "anchors": ["net.go: FQDN.Valid, FQDN.len, FQDN.Set, fqdnMax, labelMax"]}
{"id": "C26", "title": "Strength factors clamp and print what they hold", "statement": "For every integer v, the strength factor set from v prints the decimal text of v clamped to 0..256; set from the decimal text of any such number it prints the same number.", "quantifier": "every machine integer, every decimal text", "why_tests_cant": "The factor is stored in one byte with an offset and a nil case; all integers matter.", "anchors": ["sec.go: SecurityStrengthFactor.Set, SecurityStrengthFactor.String, ssf.set"]}
{"id": "C27", "title": "Strength factors never rise from unusable input", "statement": "Setting a strength factor from input that denotes no number leaves the printed factor unchanged.", "quantifier": "every input, every prior state", "why_tests_cant": "All inputs and states, including the unset state.", "anchors": ["sec.go: SecurityStrengthFactor.Set, ssf.set"]}
{"id": "C28", "title": "Authentication methods resolve by name and by number consistently", "statement": "Resolving an authentication method by its text (any letter case) gives the method carrying that text, and resolving the number documented for a method gives this method. Unknown input is never mapped to a method other than anonymous, and as the value of a bind rule it is refused.", "quantifier": "every string, every integer", "why_tests_cant": "All strings and integers.", "anchors": ["sec.go: matchAuthenticationMethod, AuthenticationMethod.String, authMap, authNames", "parse.go: assertBindAuthenticationMethod"]}
{"id": "C29", "title": "Attribute/bind-type pairs round trip", "statement": "Parsing the text at#bt or at#value of a complete pair yields a pair printing the same text, with the bind type recognised whenever the part after # is a bind type name; parsing fails for text without #, with an empty or malformed attribute or an empty value.", "quantifier": "every attribute name, every value, every text", "why_tests_cant": "All strings.", "anchors": ["attr.go: parseATBTV, AttributeBindTypeOrValue.String, atbtv.set, ABTV, AttributeBindTypeOrValue.Parse"]}
{"id": "C30", "title": "The bind keyword asked for is the one obtained", "statement": "Parsing an attribute/bind-type pair or an inheritance with keyword groupattr yields an expression whose keyword is groupattr, and with userattr one whose keyword is userattr.", "quantifier": "every parsable text, both keywords", "why_tests_cant": "All texts.", "anchors": ["attr.go: AttributeBindTypeOrValue.Parse, parseATBTV", "kw.go: assertATBTVBindKeyword", "parse.go: assertBindUGAttr", "levels.go: parseInheritance"]}
{"id": "C31", "title": "Attribute lists hold no duplicates", "statement": "After any history of pushes into an attribute type list, no attribute name occurs twice (names compared without regard to letter case).", "quantifier": "every history of pushes", "why_tests_cant": "Unbounded histories.", "anchors": ["attr.go: TAs, UAs, AttributeTypes.Push, AttributeTypes.uRIAttributesPushPolicy, AttributeTypes.targetAttributesPushPolicy, AttributeTypes.contains"]}
{"id": "C32", "title": "Attribute identifiers are well formed", "statement": "A string is accepted as an attribute identifier exactly when it is non-empty, begins with a lower or upper case letter, ends with a letter or digit and otherwise holds only letters, digits, semicolons and hyphens (letters of ISO 8859-1, as the code looks at single bytes; on ASCII these are the RFC 4512 letters).", "quantifier": "every byte string", "why_tests_cant": "All strings.", "anchors": ["misc.go: isIdentifier, isAlnum, isLetter, isLower, isUpper, isDigit"]}
{"id": "C33", "title": "Distinguished names carry exactly one local scheme prefix", "statement": "A distinguished name built from a string v, with or without the leading ldap:///, prints as ldap:/// followed by v without its prefix; building again from the printed text changes nothing.", "quantifier": "every non-empty byte string", "why_tests_cant": "All strings.", "anchors": ["dn.go: newDistinguishedName, chopDNPfx, BindDistinguishedName.String, TargetDistinguishedName.String, BindDistinguishedName.Set, TargetDistinguishedName.Set"]}
{"id": "C34", "title": "Lists of distinguished names are uniform, duplicate free and ordered", "statement": "After any history of Push calls on a bind or target DN list of keyword k, every held DN has keyword k, no two entries have the same text up to letter case, and the entries are, in order, the first offers of the eligible arguments up to the first ineligible argument of each call.", "quantifier": "every history of Push calls with arbitrary arguments", "why_tests_cant": "Unbounded histories.", "anchors": ["dn.go: BindDistinguishedNames.Push, TargetDistinguishedNames.Push, pushBindDistinguishedNames, pushTargetDistinguishedNames, BindDistinguishedNames.contains, TargetDistinguishedNames.contains, distinguishedNamesPushPolicy, UDNs, RDNs, GDNs, TDNs, TTDNs, TFDNs"]}
{"id": "C35", "title": "Popping a list returns what was pushed last", "statement": "Pop on a non-empty list of bind DNs returns the last entry and removes it; pushing then popping returns the pushed entry.", "quantifier": "every list state, every entry including LDAP URIs", "why_tests_cant": "All states; entries of a second type share the list.", "anchors": ["dn.go: BindDistinguishedNames.Pop, TargetDistinguishedNames.Pop"]}
{"id": "C36", "title": "Malformed distinguished names in rule text are refused", "statement": "A DN read from bind or target rule text is refused unless it contains an = sign or is one of the aliases all, anyone, self and parent.", "quantifier": "every byte string", "why_tests_cant": "All strings.", "anchors": ["dn.go: isInvalidDNSyntax, isDNAlias, BindDistinguishedNames.setExpressionValues, TargetDistinguishedNames.setExpressionValues"]}
{"id": "C37", "title": "Object identifier lists hold distinct identifiers of one kind", "statement": "After any history of pushes into a list made for controls (or for extended operations) every held identifier has the list's keyword and no dotted form occurs twice.", "quantifier": "every history of pushes", "why_tests_cant": "Unbounded histories.", "anchors": ["oid.go: Ctrls, ExtOps, ObjectIdentifiers.Push, ObjectIdentifiers.contains, ObjectIdentifiers.objectIdentifiersPushPolicy"]}
{"id": "C38", "title": "LDAP URIs print every component they hold", "statement": "The text of an LDAP URI shows its DN, its attributes, its scope and its filter whenever they are set, so that two URIs differing in one of these components print differently.", "quantifier": "every combination of components", "why_tests_cant": "Product of optional components with arbitrary content.", "anchors": ["uri.go: LDAPURI.String, ldapURI.string, LDAPURI.Set"]}
{"id": "C39", "title": "LDAP URI text round trip", "statement": "Parsing the text of an LDAP URI that has a DN, optional attributes, a scope and a filter (none containing the ? separator before the filter) yields a URI with the same components and the same text.", "quantifier": "every combination of components", "why_tests_cant": "All strings.", "anchors": ["uri.go: LDAPURI.String, parseLDAPURI, ldapURI.set", "parse.go: parseLDAPURI, LDAPURI.Parse"]}
{"id": "C40", "title": "Attribute filter text round trip", "statement": "The text attribute:filter of every attribute filter with a valid attribute and non-empty filter parses back to the same attribute and filter; text without a colon, with an unusable attribute, or with an empty filter is refused.", "quantifier": "every attribute, every filter, every text", "why_tests_cant": "All strings.", "anchors": ["filter.go: AttributeFilter.String, parseAttributeFilter, AttributeFilter.Valid, AF", "parse.go: AttributeFilter.Parse"]}
{"id": "C41", "title": "Attribute filter operations keep their operation and their filters", "statement": "The text of an add or delete operation over attribute filters parses back to the same operation with the same filters in the same order, provided no filter contains the && separator.", "quantifier": "every operation, every non-empty list of filters", "why_tests_cant": "Lists of arbitrary strings.", "anchors": ["filter.go: AttributeFilterOperation.String, parseAttributeFilterOperation, parseAttrFilterOperPreamble, AttributeFilterOperation.Push, AttributeOperation.AFO"]}
{"id": "C42", "title": "Filters may contain any text", "statement": "Parsing the text of an add/delete operation succeeds for every filter content that a search filter may hold, including commas, semicolons and the words add= and delete=.", "quantifier": "every filter content", "why_tests_cant": "All strings.", "anchors": ["filter.go: parseAttributeFilterOperations, afosDelim, hasAttributeFilterOperationPrefix"]}
{"id": "C43", "title": "A target rule list never holds two rules of one keyword", "statement": "After any history of Push and Pop calls, a target rule list holds at most nine rules, all non-zero with a known target keyword and pairwise different keywords; a refused push leaves the list unchanged.", "quantifier": "every history of Push and Pop calls with arbitrary arguments", "why_tests_cant": "Unbounded histories.", "anchors": ["target.go: TRs, TargetRules.Push, TargetRules.Pop, TargetRules.pushPolicy, TargetRules.contains"]}
{"id": "C44", "title": "Target attributes are read completely", "statement": "Reading a targetattr rule with values v1..vn yields the attribute list v1..vn.", "quantifier": "every list of attribute names", "why_tests_cant": "Lists of arbitrary length.", "anchors": ["parse.go: assertTargetAttributes"]}
{"id": "C45", "title": "Reading target rules reports the first unreadable rule", "statement": "Reading a sequence of target rules fails if one of them has an unreadable value, and otherwise yields the rules in order.", "quantifier": "every sequence of parsed conditions", "why_tests_cant": "Lists of arbitrary length.", "anchors": ["parse.go: parseTargetRules, processTargetRules, TargetRule.assertExpressionValue, parseTargetRule"]}
{"id": "C46", "title": "Reading bind rules preserves their logical meaning", "statement": "Whenever reading a nested bind rule expression succeeds, the resulting AND/OR/NOT structure evaluates to the same truth value as the expression that was read, for every assignment of truth values to the individual conditions.", "quantifier": "every finite bind rule tree, every assignment of truth values", "why_tests_cant": "Unbounded trees; dropping one conjunct widens access.", "anchors": ["bind.go: convertBindRulesHierarchy, wordToStack", "parse.go: parseBindRules, BindRule.assertExpressionValue"]}
{"id": "C47", "title": "Removing redundant envelopes preserves meaning", "statement": "Stripping envelopes of single-element stacks from a bind rule tree never changes its truth value under any assignment and never strips a negation or a parenthesised group.", "quantifier": "every finite bind rule tree", "why_tests_cant": "Unbounded nesting.", "anchors": ["bind.go: uncloak, uncloakBindRules, isCloaked"]}
{"id": "C48", "title": "Bind rule lists accept only usable bind contexts", "statement": "After any history of Push calls on a stack made by And, Or or Not, every element is a bind rule or a bind rule list; invalid bind rules are not accepted.", "quantifier": "every history of Push calls", "why_tests_cant": "Unbounded histories.", "anchors": ["bind.go: And, Or, Not, BindRules.Push, BindRules.pushPolicy, BindRule.Valid"]}
{"id": "C49", "title": "Permission bind rules are complete and distinct", "statement": "After any history of pushes, every element of a permission bind rule list passes Valid and no two elements have the same text up to letter case; elements keep the order in which they were accepted.", "quantifier": "every history of pushes", "why_tests_cant": "Unbounded histories.", "anchors": ["pb.go: PBRs, PermissionBindRules.Push, PermissionBindRules.pushPolicy, PermissionBindRules.contains, PermissionBindRule.Valid"]}
{"id": "C50", "title": "A permission bind rule shows both of its parts", "statement": "A valid permission bind rule prints the text of its permission, a space, the text of its bind rules and a semicolon; an invalid one prints a fixed marker that no valid rule prints.", "quantifier": "every permission, every bind context", "why_tests_cant": "All component texts.", "anchors": ["pb.go: PermissionBindRule.String, PermissionBindRule.Valid, PBR"]}
{"id": "C51", "title": "The label of an instruction is fixed once set", "statement": "Over any history of Set calls the label of an instruction is the first non-empty string given to it; target rules and permission bind rules accumulate under the rules of their lists.", "quantifier": "every history of Set calls", "why_tests_cant": "Unbounded histories.", "anchors": ["ins.go: Instruction.Set, instruction.set, instruction.assertInstruction, instruction.setLabel, instruction.targetPush, instruction.permissionBindRulesPush, ACI"]}
{"id": "C52", "title": "Instruction lists hold no duplicate instructions", "statement": "After any history of pushes no two instructions in a list have the same text up to letter case.", "quantifier": "every history of pushes", "why_tests_cant": "Unbounded histories.", "anchors": ["ins.go: ACIs, Instructions.Push, Instructions.pushPolicy, Instructions.contains"]}
{"id": "C53", "title": "Parsing an instruction loses no permission bind rule", "statement": "Whenever parsing an instruction succeeds, every permission bind rule and target rule of the text is present in the result.", "quantifier": "every parser output", "why_tests_cant": "All inputs; silently losing a deny rule widens access.", "anchors": ["parse.go: Instruction.Parse, processPermissionBindRules, processPermissionBindRule, processTargetRules"]}
{"id": "C54", "title": "White space condensing is harmless", "statement": "Condensing white space in any text changes nothing but white space: the non-blank bytes are the same in the same order, words stay separated, no two adjacent blanks remain, none at either end, and condensing twice equals condensing once.", "quantifier": "every byte string", "why_tests_cant": "All strings.", "anchors": ["misc.go: condenseWHSP"]}
{"id": "C55", "title": "Unquoting undoes quoting", "statement": "For every text of more than zero bytes, removing quotes from the text enclosed in a pair of double quotes gives the text back; text of two bytes or fewer is never changed.", "quantifier": "every byte string", "why_tests_cant": "All strings.", "anchors": ["misc.go: unquote"]}
{"id": "C56", "title": "Compare is a sound equality test", "statement": "Compare on two values with text is symmetric, is true for values with equal non-empty text, and (for a collision-free hash) is false for values with different text. Every usable value compares equal to itself.", "quantifier": "every pair of values", "why_tests_cant": "All values, and one abstract hash function.", "anchors": ["misc.go: hashInstance, compareHashInstance"]}
{"id": "C57", "title": "A rule's operator is always one its keyword permits", "statement": "Over any history of SetKeyword and SetOperator calls on a bind rule, the rule has no operator or one that ACIv3 permits for its present keyword; a target rule accepted by Valid has an operator its keyword permits.", "quantifier": "every finite history of setter calls with arbitrary arguments", "why_tests_cant": "The setters may be called in any order and any number of times.", "anchors": ["bind.go: BindRule.SetKeyword, BindRule.SetOperator", "target.go: TargetRule.Valid", "cop.go: keywordAllowsComparisonOperator"]}
{"id": "C58", "title": "A dns bind value is a host name", "statement": "The value of a dns bind rule is accepted only if, apart from blanks and quotation marks around it, it is a host name of at least two valid labels, and then exactly these labels are stored.", "quantifier": "every value", "why_tests_cant": "All byte strings; the check compares the printed form of what was read with the input.", "anchors": ["parse.go: assertBindNet", "net.go: DNS, FQDN.String, FQDN.Valid", "err.go: badDNSErr"]}
{"id": "C59", "title": "Object identifier values are all kept or the rule is refused", "statement": "When the values of a targetcontrol or extop rule are read, either the rule is refused or the list holds the reading of every value.", "quantifier": "every list of values", "why_tests_cant": "Arbitrary lists of values; the error of the function that reads them is not looked at.", "anchors": ["parse.go: assertTargetOID", "oid.go: ObjectIdentifiers.setExpressionValues, newObjectID"]}
{"id": "C60", "title": "A list of filter operations prints as it was written", "statement": "The text of a list of add and delete operations, with either of the two delimiters, reads as a list that prints the same text.", "quantifier": "every list of operations, both delimiters", "why_tests_cant": "Arbitrary numbers of operations and filters; tests print only lists separated by commas.", "anchors": ["filter.go: parseAttributeFilterOperations, AttributeFilterOperations.String, AttributeFilterOperations.SetDelimiter, afosDelim", "parse.go: AttributeFilterOperations.Parse"]}
{"id": "C61", "title": "Values of a rule are quoted once", "statement": "After SetQuoteStyle with the style of separate quotation every value of a list in a target rule has its own quotation marks; with the other style the list as a whole has them. No value is printed without quotation marks.", "quantifier": "every rule, every list, every style", "why_tests_cant": "Lists of arbitrary length; tests print lists of several values only.", "anchors": ["target.go: TargetRule.SetQuoteStyle, TargetRule.String", "attr.go: AttributeTypes.setQuoteStyle", "dn.go: setQuoteStyle", "oid.go: ObjectIdentifiers.setQuoteStyle"]}
{"id": "C62", "title": "Target rules made in one step are valid exactly if their parts fit", "statement": "TR keeps the keyword, the operator and the expression it is given, up to the letter case of the keyword; an operator that ACIv3 does not allow with the keyword is left out. The result is valid exactly when the keyword and the operator are known, the keyword allows the operator and there is an expression.", "quantifier": "every combination of arguments", "why_tests_cant": "Arguments are arbitrary constants and texts.", "anchors": ["target.go: TR, newTargetRule, TargetRule.SetKeyword, TargetRule.SetOperator, TargetRule.SetExpression, TargetRule.Valid"]}
{"id": "C63", "title": "Reading one target rule reports an unreadable value", "statement": "ParseTargetRule returns an error when the value of the rule cannot be read, and otherwise the rule with its keyword, operator and value.", "quantifier": "every parsed condition", "why_tests_cant": "Arbitrary values; the error of the function that reads them is not looked at.", "anchors": ["parse.go: parseTargetRule, TargetRule.assertExpressionValue, TargetRule.Parse"]}
{"id": "C64", "title": "Weekdays and Weekend give the days they name", "statement": "Weekdays and Weekend with the operator Eq or Ne, given as constant, number or text, return a valid dayofweek rule with this operator and exactly the days Monday to Friday or Sunday and Saturday; with every other argument they return the zero rule.", "quantifier": "every argument, every iteration order of the method map", "why_tests_cant": "Arguments are arbitrary numbers and texts.", "anchors": ["time.go: Weekdays, Weekend, DayOfWeek.BRM, DayOfWeek.Eq, DayOfWeek.Ne, DoW", "bind.go: BindRuleMethods.index, rangeBindRuleFuncMap"]}
{"id": "C65", "title": "Reading one bind rule reads its value", "statement": "ParseBindRule returns an error when the value of the rule cannot be read, and otherwise the rule with a value of the type of its keyword.", "quantifier": "every parsed condition", "why_tests_cant": "Arbitrary values; the function returns what the parser gives without looking at the value.", "anchors": ["parse.go: ParseBindRule, BindRule.Parse, parseBindRule"]}
{"id": "C66", "title": "Bind rules made in one step are valid exactly if their parts fit", "statement": "BR keeps the keyword, the operator and the expression it is given; an operator that ACIv3 does not allow with the keyword is left out. The result is valid exactly when the keyword and the operator are known, the keyword allows the operator and there is an expression.", "quantifier": "every combination of arguments", "why_tests_cant": "Arguments are arbitrary constants and texts.", "anchors": ["bind.go: BR, newBindRule, BindRule.SetKeyword, BindRule.SetOperator, BindRule.SetExpression, BindRule.Valid"]}
{"id": "C67", "title": "A valid permission bind rule is usable", "statement": "A permission bind rule passes Valid exactly when it has a permission and a bind context that is valid and, if it is a list, not empty, as the documentation of Valid says.", "quantifier": "every permission, every bind context", "why_tests_cant": "Arbitrary bind contexts; an unconditional grant of all rights must not pass.", "anchors": ["pb.go: PermissionBindRule.Valid, PermissionBindRule.valid, PBR", "parse.go: processPermissionBindRule"]}
{"id": "C68", "title": "Setting parts of a permission bind rule", "statement": "After any history of Set calls the permission and the bind context are the last ones given, where a refused value (unreadable text, invalid permission, invalid bind context) ends its call and changes nothing; a part never given stays as it was.", "quantifier": "every history of Set calls with any arguments", "why_tests_cant": "Unbounded histories.", "anchors": ["pb.go: PermissionBindRule.Set, permissionBindRule.set"]}
{"id": "C69", "title": "A valid instruction is complete", "statement": "An instruction that passes Valid has a label and at least one permission bind rule.", "quantifier": "every instruction", "why_tests_cant": "All instructions.", "anchors": ["ins.go: Instruction.Valid, Instruction.IsZero, Instruction.String, ACI"]}
{"id": "C70", "title": "The text of an instruction shows its label", "statement": "Two instructions with the same text have the same label, so that no label can pass for permission bind rules.", "quantifier": "every pair of instructions", "why_tests_cant": "All labels and rules; a forged label would appear to grant rights.", "anchors": ["ins.go: Instruction.String, instruction.setLabel"]}
{"id": "C71", "title": "Tables of rule methods list the operators ACIv3 allows", "statement": "The table that BRM or TRM of a value returns has a method for an operator exactly when ACIv3 allows this operator with the keyword of the value.", "quantifier": "every value of every type with such a table, every keyword and operator", "why_tests_cant": "Eighteen types with hand written tables; tests look at few of them.", "anchors": ["bind.go: newBindRuleMethods", "target.go: newTargetRuleMethods", "all BRM and TRM methods: attr.go, dn.go, filter.go, inh.go, net.go, oid.go, scope.go, sec.go, time.go, uri.go"]}
{"id": "C72", "title": "Rule methods make the rule they are listed for", "statement": "Calling a method of the table of a value gives a valid rule with the operator under which it is listed, the keyword of the value and the value as expression. Without a usable value no method gives a valid rule.", "quantifier": "every value of every type with such a table, every operator", "why_tests_cant": "Arbitrary values; the methods are written one by one for each type and operator.", "anchors": ["all Eq, Ne, Lt, Le, Gt, Ge methods: attr.go, dn.go, filter.go, inh.go, net.go, oid.go, scope.go, sec.go, time.go, uri.go"]}
{"id": "C73", "title": "A valid table of rule methods makes valid rules", "statement": "If Valid of a table of methods reports no error then every method in the table makes a valid rule; Valid never calls a missing method, and reports a missing table.", "quantifier": "every table that BRM and TRM return", "why_tests_cant": "Valid calls only the method for Eq.", "anchors": ["bind.go: BindRuleMethods.Valid", "target.go: TargetRuleMethods.Valid"]}
{"id": "C74", "title": "Numbers find the methods of the names beside them", "statement": "In the documentation of Index every operator has a number, a short name and a long name. All three find the same method.", "quantifier": "every table of methods, every documented operator", "why_tests_cant": "Every table; the tests look methods up by constant.", "anchors": ["bind.go: BindRuleMethods.Index, rangeBindRuleFuncMap", "target.go: TargetRuleMethods.Index, rangeTargetRuleFuncMap", "stackage.go: Eq, Ne, Lt, Gt, Le, Ge"]}
{"id": "C75", "title": "The text of bind rules shows their meaning", "statement": "Two bind contexts that print the same text hold under the same circumstances: stacks of AND, OR and NOT cannot be confused in print, and no value can pass for rules.", "quantifier": "every pair of bind contexts of any depth", "why_tests_cant": "Trees of unbounded depth and arbitrary values; a text that grants more than was built would be stored in the directory.", "anchors": ["bind.go: BindRules.String, BindRule.String, BindRules.Paren, And, Or, Not"]}
{"id": "C76", "title": "Texts are read as they are written", "statement": "White space outside of quotation marks makes no difference, and what stands between quotation marks (labels, values) is read exactly as it is written.", "quantifier": "every text of bind rules, target rules and instructions, every parser that ignores white space outside of quotation marks", "why_tests_cant": "All texts; the tests use ASCII with single blanks.", "anchors": ["parse.go: parseBindRules, parseTargetRules, Instruction.Parse", "misc.go: condenseWHSP"]}
{"id": "C77", "title": "Reading into a receiver is all or nothing", "statement": "Parse replaces all that the receiver holds by what is read from the text and reports no error, or it leaves the receiver as it was and reports an error; this holds for each of the thirteen types that have such a method. After any number of texts the receiver holds what was read from the last one that was read.", "quantifier": "every text, every receiver, every sequence of calls", "why_tests_cant": "All histories of a receiver; tests parse into fresh ones.", "anchors": ["parse.go: BindRule.Parse, BindRules.Parse, Permission.Parse, TargetRule.Parse, TargetRules.Parse, PermissionBindRule.Parse, PermissionBindRules.Parse, Instruction.Parse, LDAPURI.Parse, AttributeFilterOperations.Parse, AttributeFilterOperation.Parse, AttributeFilter.Parse", "attr.go: AttributeBindTypeOrValue.Parse"]}
{"id": "C78", "title": "Filter operations are read as written", "statement": "A text is read as an attribute filter operation exactly if it is add= or delete= followed by attribute filters joined by &&; the operation holds these filters, each once and in their order. A list of operations is read exactly if each of its parts is. Operations in a list have filters and distinct texts, after any history of calls.", "quantifier": "every text, every list and every history of Push, Pop and SetDelimiter", "why_tests_cant": "All texts and histories.", "anchors": ["filter.go: parseAttributeFilterOperation, parseAttributeFilterOperations, AttributeFilterOperations.Push, Pop, Contains, pushPolicy"]}
{"id": "C79", "title": "Values given at creation are the values pushed", "statement": "AFOs(x...) and PBRs(x...) hold what AFOs().Push(x...) and PBRs().Push(x...) hold; the documentation calls this a more convenient alternative to separate initialization and push. Lists of operations made in either way are written with commas.", "quantifier": "every sequence of arguments", "why_tests_cant": "Arbitrary sequences of arguments of several types.", "anchors": ["filter.go: AFOs, AttributeFilterOperations.Push", "pb.go: PBRs, PermissionBindRules.Push"]}
{"id": "C80", "title": "Target values are read as their keyword demands", "statement": "The value read for a target rule has the type its keyword demands (scope, filter, attributes, object identifiers, names, filter operations), and for every keyword exactly the texts of that type are read.", "quantifier": "every target rule the parser makes, every value text", "why_tests_cant": "Every combination of keyword and texts.", "anchors": ["parse.go: TargetRule.assertExpressionValue, assertTargetFilter, assertTargetTFDN, assertTargetAttrFilters, assertTargetOID, assertTargetAttributes, assertTargetScope"]}
{"id": "C81", "title": "A URI holds the parts given to it", "statement": "After Set the name, scope, pair, filter and list of attributes of a URI are those given, and the order in which they are given does not matter; a readable text replaces the whole URI.", "quantifier": "every URI, every sequence of parts and texts", "why_tests_cant": "Arbitrary sequences of parts of several types.", "anchors": ["uri.go: LDAPURI.Set, ldapURI.set, URI"]}
{"id": "C82", "title": "The rule of a URI has the documented keyword", "statement": "The bind rule that Eq or Ne makes from a URI has the keyword userattr if a pair is set in the URI, and otherwise the keyword of its name; Keyword gives the same keyword.", "quantifier": "every valid URI", "why_tests_cant": "Every combination of pair and name.", "anchors": ["uri.go: LDAPURI.makeBindRule, LDAPURI.Keyword"]}
{"id": "C83", "title": "Parts of an attribute pair are not replaced", "statement": "Set, UAT, GAT and ABTV assign the attribute of an attribute/bind-type pair and its bind type or value only while they are not set; the attribute is the first attribute or text given, and a text is taken for the bind type it names, otherwise for a value.", "quantifier": "every pair and every list of arguments", "why_tests_cant": "Arguments come in any number, order and mixture of types; the comment of the function says that a part is assigned only if it is nil, the code for texts does not check.", "anchors": ["attr.go:93-144", "attr.go:243-271"]}
{"id": "C84", "title": "Bind values are read as their keyword demands", "statement": "A bind rule of the parser is read only into a value of the type its keyword demands: lists of names and addresses (userdn, roledn, groupdn) from one or more texts, every other keyword from exactly one text, by the notation of its type.", "quantifier": "every bind keyword, every list of texts, every order of the tables of authentication methods", "why_tests_cant": "Texts are arbitrary; the tests read a few instructions of each keyword.", "anchors": ["parse.go:130-392", "dn.go:893-933"]}
{"id": "C85", "title": "What is refused is reported", "statement": "Every error constructor returns a non-nil error, whatever it is given, except for the six that compare what was read with what was given: those return nil exactly if the two agree.", "quantifier": "every constructor of err.go, every argument, including nil values, empty texts, missing keywords and missing causes", "why_tests_cant": "A nil error would let a refused value pass in silence; the tests only call the constructors and drop the results.", "anchors": ["err.go: errorf, nilInstanceErr, badClockTimeErr, unexpectedBindConditionValueErr, pushError and all others"]}
{"id": "C86", "title": "Error messages are complete", "statement": "Every error message names the types, texts, numbers and keyword it is about, and every verb of its text has a value that suits it and every value a verb, so that no message has a complaint of the fmt package.", "quantifier": "every constructor of err.go, every argument", "why_tests_cant": "go vet does not see through errorf, whose first argument has type any; the tests drop the messages.", "anchors": ["err.go: all constructors", "attr.go: pushErrorNilOrZero call in pushPolicy", "dn.go: distinguishedNamesPushPolicy", "target.go: TargetRules.pushPolicy"]}
{"id": "C87", "title": "Compare tells values apart and knows them again", "statement": "For every type with a Compare method of its own meaning (rights, permissions, scopes, authentication methods, strength factors, levels, inheritances, addresses, host names, distinguished names), and for days and clock times through Hash: two usable values compare equal exactly if they mean the same, in particular every usable value equals itself.", "quantifier": "every pair of usable values of each type, every collision-free hash, every order of the tables", "why_tests_cant": "Pairs of values are unbounded in number, and equality of texts must follow from equality of meaning and the reverse; the tests compare a handful of values.", "anchors": ["misc.go: getStringFunc, hashInstance, compareHashInstance", "rights.go, scope.go, sec.go, levels.go, net.go, dn.go: the Compare methods"]}
{"id": "C88", "title": "The text of an instruction shows all of it", "statement": "Two instructions made of valid rules that have the same text have the same label, the same target rules in the same order (keyword, operator and value), and permission bind rules that, in the same order, allow or deny the same rights under the same circumstances.", "quantifier": "every pair of instructions of valid rules, any number of rules, any nesting of bind contexts, every label and value", "why_tests_cant": "Two different instructions with one text must be excluded, over unbounded labels, rules and nestings; the tests print single instructions and compare with a text.", "anchors": ["ins.go: Instruction.String, instruction.setLabel", "target.go: TargetRules.String, TargetRule.String", "pb.go: PermissionBindRule.String, PermissionBindRules.String", "bind.go: BindRules.String, BindRule.String"]}
{"id": "C89", "title": "LDAP URI text is read part by part", "statement": "A text is read as an LDAP URI only if it begins with ldap:/// and consists, between question marks, of a distinguished name, then attribute names separated by commas or one attribute pair, then a scope, then a filter, each but the name optional and nothing behind them; the URI read has exactly these components, and every such text is read.", "quantifier": "every text, every keyword handed to the reader", "why_tests_cant": "Texts are unbounded and the reader passes over what it does not know; the tests read a dozen URIs and compare the printed text.", "anchors": ["parse.go: parseLDAPURI", "uri.go: LDAPURI.set and its components", "attr.go: parseATBTV", "levels.go: parseInheritance"]}
{"id": "C90", "title": "A permission bind rule that is read says what its text says", "statement": "A permission bind rule read from a text allows or denies, as the text does, exactly the rights the text names, and its bind rules hold under exactly the circumstances under which the conditions of the text hold; every text whose conditions can all be read is read.", "quantifier": "every permission and every tree of conditions of the parser, any nesting, every meaning of the conditions", "why_tests_cant": "Trees of conditions are unbounded; the tests read a handful of rules and compare the printed text.", "anchors": ["parse.go: processPermissionBindRule, unpackageAntlrPermission", "bind.go: convertBindRulesHierarchy"]}
{"id": "C91", "title": "Changing one value leaves every other value as it was", "statement": "For every type whose Set, Shift or Unshift changes a receiver: a call on one variable changes what this variable stands for, as the method says, and what no other variable stands for, whatever was made, copied or assigned before; in particular the predefined values stay as they are.", "quantifier": "every program of constructors, copies, calls and assignments, any number of variables, each of fifteen types", "why_tests_cant": "Which variables share storage depends on the whole history of copies and on which methods make new storage; the tests call Set on fresh values only.", "anchors": ["dn.go: BindDistinguishedName.Set, TargetDistinguishedName.Set", "filter.go: SearchFilter.Set, AttributeFilter.Set", "rights.go, levels.go, time.go: Shift, Unshift", "sec.go, net.go, attr.go, uri.go, pb.go, ins.go: Set"]}
{"id": "C92", "title": "What was made from a value keeps saying what it said", "statement": "A bind rule or list made from distinguished names keeps its text, and the list stays free of duplicates and of other keywords, through everything done later with the variables it was made from.", "quantifier": "every program before and after the rule or list is made, any number of variables and names", "why_tests_cant": "The rule or list holds pointers, so what it says depends on all later calls through any copy; the tests print right after making.", "anchors": ["dn.go: BindDistinguishedName.Eq, Ne, bindDNToCondition", "dn.go: pushBindDistinguishedNames, BindDistinguishedNames.Push", "dn.go: AllDN, AnyDN, SelfDN, ParentDN"]}
{"id": "C93", "title": "How a text is read depends on the text alone", "statement": "Whether the values of a rule are read as distinguished names, and as which, is the same at every time of a program, whatever was done before with values of the package.", "quantifier": "every program over names, every list of values, every keyword of names", "why_tests_cant": "isDNAlias compares with exported variables; a test would have to change them first and to know which texts are then read differently.", "anchors": ["dn.go: isDNAlias, isInvalidDNSyntax, init", "dn.go: setExpressionValues of both lists", "parse.go: assertBindUGRDN, assertTargetTFDN"]}
{"id": "C94", "title": "A value reports the keyword of the rules made from it", "statement": "Every value of a rule reports by Keyword the keyword that its documentation names, and this is the keyword of every bind or target rule made from the value. Kind gives the name of this keyword, or the word documented instead.", "quantifier": "every value of every type from which bind or target rules are made, every comparison operator", "why_tests_cant": "Keyword and the rule constructors are separate code for each of twenty types; the tests call Keyword on a few fresh values and do not compare with the rules.", "anchors": ["Keyword of dn.go, uri.go, levels.go, attr.go, net.go, time.go, sec.go, scope.go, filter.go, oid.go", "dn.go, attr.go, oid.go: Kind"]}
{"id": "C95", "title": "The function a list hands out makes what the list takes", "statement": "What the function returned by F of a list makes from a text has the keyword of the list, and pushing it leaves the list exactly as pushing the text does; an uninitialized list hands out UDN, TDN or Ctrl.", "quantifier": "every list of names or object identifiers whatever it contains, every text, every further argument of Push", "why_tests_cant": "Agreement of two ways into the list over unbounded texts and contents; the tests call F and look at the type.", "anchors": ["dn.go: BindDistinguishedNames.F, TargetDistinguishedNames.F", "oid.go: ObjectIdentifiers.F", "dn.go, oid.go: Push"]}
{"id": "C96", "title": "A rule put together step by step is the rule made at once", "statement": "Calling Init, SetKeyword, SetOperator and SetExpression one after the other gives the rule that BR or TR makes of the same arguments, with the same text; after any calls a rule has the keyword and value that were set last and the last operator that went with the keyword of its time; Init on a used rule starts a new one; a chain of setters, each called on what the one before returned, returns the rule with these parts.", "quantifier": "every sequence of calls on a declared rule, every argument of any type", "why_tests_cant": "Sequences of calls are unbounded and operators are accepted or not by the keyword of the moment; the tests make one rule in one order and print its operator.", "anchors": ["bind.go: BindRule.Init, SetKeyword, SetOperator, SetExpression, SetQuoteStyle, newBindRule", "target.go: TargetRule.Init and setters, newTargetRule"]}
{"id": "C97", "title": "Rules and contexts say about themselves what is documented", "statement": "Of every bind rule, ID is bind, Category the keyword or empty, and Operator its operator, wherever the rule comes from and whatever was called on it; a rule has length one once it was started and none before; of every context, Kind, Len, IsNesting and Category are those documented, Index finds the entry at a position and Traverse the context at the end of a path.", "quantifier": "every sequence of calls, rules made, declared or handed over by the parser, contexts of any depth and every path in them", "why_tests_cant": "The answers depend on where a rule comes from and on the dynamic type of its operator, and paths are unbounded; the tests ask a few fresh rules.", "anchors": ["bind.go: BindContext and its methods of BindRule and BindRules", "target.go: TargetRule.ID, Category, Operator, Valid", "stackage.go: castCop"]}
{"id": "C98", "title": "What a value prints is read as that value", "statement": "If the value of a bind or target rule was read from texts, then the texts it prints are read again for the same keyword, whatever the quotation style, the letter case of the keyword and the settings, and give the same texts; a value whose parts are well formed is read back as itself and as nothing else.", "quantifier": "all twenty keywords, all values and texts, all ways to quote, every reader of dot notations and every comparison of texts", "why_tests_cant": "The space of values and texts is unbounded and the readers differ from keyword to keyword; the tests print a few values that were made in code and compare with a literal.", "anchors": ["parse.go:331 BindRule.assertExpressionValue", "parse.go:521 TargetRule.assertExpressionValue", "the String methods of all values"]}
{"id": "C99", "title": "Bind rules that are read print as their text", "statement": "The bind rules read from a text print as this text, when the parser returns what stands in the text. Bind rules that are printed are read again: with the same text, the same rules in the same order with the same keywords, operators and values, and the same meaning, however the parser nests the stacks.", "quantifier": "all trees of conditions a parser may return for the text, all nesting depths, all contexts with sound values, all truth values of rules", "why_tests_cant": "Trees and texts are unbounded; ParseBindRules has the comparison of the texts commented out, and the tests compare a handful of literals.", "anchors": ["bind.go: convertBindRulesHierarchy, uncloakBindRules, SetQuoteStyle, String", "parse.go: parseBindRules, BindRule.assertExpressionValue"]}
{"id": "C100", "title": "An instruction that is printed is read as this instruction", "statement": "The text of an instruction is read, however the parser splits it, as an instruction with the same text: the same label, the same target rules in the same order with the same keywords, operators and values, and, in the same order, permission bind rules that allow or deny the same rights under the same circumstances.", "quantifier": "all instructions with any number of target rules and permission bind rules, all nesting depths of bind rules, all parts a parser may return for the text, all readers of object identifiers and all comparisons that satisfy their contracts", "why_tests_cant": "Instructions are unbounded trees of values of some twenty types; the tests parse a few literal instructions and compare a few strings.", "anchors": ["ins.go: Instruction.String, Instruction.Set", "parse.go: Instruction.Parse, processTargetRules, processPermissionBindRules, unpackageAntlrPermission, assertExpressionValue", "target.go: TargetRule.String, SetQuoteStyle", "pb.go: PermissionBindRule.String, Push"]}
{"id": "C101", "title": "A list shows and finds what it holds", "statement": "For each of the nine list types, after any history of calls: Len is the number of the entries, Index shows each entry at its place, Pop returns the last entry and leaves the others, Contains is true of every entry given as a value or as its text, and a value or a text is contained only if an entry has its text; what is neither an entry nor a text is not contained.", "quantifier": "All lists, histories, entries and numbers of entries; all contracts of go-stackage for other numbers.", "why_tests_cant": "Tests look for a few entries of a few lists; the entries that Pop, Index or Contains lose (addresses among names, keywords among identifiers, labels with doubled white space) need a choice no test makes.", "anchors": ["attr.go: AttributeTypes.Index, Contains, Pop", "dn.go: BindDistinguishedNames.Index, Contains, Pop, TargetDistinguishedNames.Index, Contains, Pop", "oid.go: ObjectIdentifiers.Index, Contains, Pop", "filter.go: AttributeFilterOperation.Index, Contains, Pop, AttributeFilterOperations.Index, Contains, Pop", "target.go: TargetRules.Index, Contains, Pop", "pb.go: PermissionBindRules.Index, Contains, Pop", "ins.go: Instructions.Index, Contains, Pop"]}
{"id": "C102", "title": "The length of a value counts its parts", "statement": "The length of a set of days, of levels or of addresses, and of a host name, is the number of different days, levels, addresses or labels it holds and, unless it is 0, the number of parts its text has; the length of a table of methods is the number of operators that go with the keyword of its value; a single value has the length 1 when it was made from an acceptable text and otherwise 0.", "quantifier": "all histories of Shift, Unshift and Set calls with all arguments, all host names, all values that have a table of methods, all texts", "why_tests_cant": "Histories, addresses and labels are unbounded; the tests ask for the length of a few values and mostly discard the answer.", "anchors": ["time.go: DayOfWeek.Len", "levels.go: Inheritance.Len", "net.go: IPAddr.Len, FQDN.Len", "bind.go: BindRuleMethods.Len", "target.go: TargetRuleMethods.Len", "attr.go: AttributeType.Len", "dn.go: BindDistinguishedName.Len, TargetDistinguishedName.Len", "oid.go: ObjectIdentifier.Len, isDotNot", "uri.go: LDAPURI.Len"]}
{"id": "C103", "title": "An attribute filter holds the parts given to it", "statement": "After AF and any number of Set calls, the attribute type and the filter of an attribute filter are those given last, as values or as texts and in any order; other arguments change nothing. It prints both parts with a colon between, or nothing if one is missing. An attribute value holds the text it was made from.", "quantifier": "all histories of calls with any number of arguments of any type, all texts", "why_tests_cant": "The order, number and types of the arguments are unbounded and a text is sorted by its form; the tests give one attribute and one filter.", "anchors": ["filter.go:219 AF, newAttrFilter", "filter.go:237 AttributeFilter.Set, atf.set", "filter.go:249 AttributeFilter.AttributeType, SearchFilter", "filter.go:298 AttributeFilter.String", "attr.go:489 AV, AttributeValue.String"]}
{"id": "C104", "title": "Conversions between the types keep what is stored", "statement": "Exactly the values whose type is stackage.Stack or one of the ten types defined upon it are converted to a stack, which is the one they hold; bind and target rules are converted to the condition they hold, anything else to an empty one; made a bind rule or bind rules and converted back, a condition or stack is the same. What is said to be a stack or condition can be converted or resolved.", "quantifier": "all values of all types, with any stacks and conditions in them", "why_tests_cant": "The types are an open set and the test of isStack repeats the list of the code, single values included.", "anchors": ["stackage.go:173 castAsCondition, cast", "stackage.go:277 castAsBindRule, castAsBindRules", "stackage.go:308 isStack, isStackageStack, isPkgStack, isStackageCondition, derefC", "stackage.go:373 castAsStack, castBTRules, castDNRules, castFilterRules, badCond"]}
{"id": "C105", "title": "Powers of two and the sizes of numbers are known", "statement": "isPowerOfTwo is true exactly of the powers of two; isIUint is true exactly of integers and pointers to integers of any size, and bitSize is their size and 0 for anything else; days have 8 bits, rights and levels 16, and the loops over the bits of levels reach all of them on any machine.", "quantifier": "all integers of any word size, values of all types and nil", "why_tests_cant": "The integers are too many and the types an open set; the tests call both functions and discard the answers.", "anchors": ["misc.go:226 isPowerOfTwo", "misc.go:325 isPtr", "misc.go:341 isIUint", "misc.go:384 bitSize", "levels.go:10 levelBitIter"]}
{"id": "C106", "title": "The layout of rules does not change what they say", "statement": "Padding, and the letter case of the words AND, OR and NOT, can be set at any depth without changing what the text of rules says: besides white space outside of quotation marks and letter case, the texts are the same, and empty texts stay empty. Without padding nothing in the text of a rule can be left out. Words in any letter case are read as the same rules. A list of target rules says the same with and without blanks between and within its rules.", "quantifier": "all bind contexts of any depth, all combinations of settings, all values; all trees of conditions; all lists of target rules", "why_tests_cant": "Each setting can be made for each of the unboundedly many rules and stacks; the tests show a few outputs with padding turned off for the whole text.", "anchors": ["bind.go: BindRule.NoPadding, BindRules.NoPadding, BindRules.Fold, BindRule.Paren, BindRules.Paren, IsParen, wordToStack", "target.go: TargetRule.NoPadding, TargetRules.NoPadding, TargetRules.String"]}
{"id": "C107", "title": "Only an empty list takes another keyword", "statement": "A list of names, object identifiers or attribute types that has entries keeps its keyword, whatever keyword it is given. An empty list takes each keyword of its kind, given as such or as a word in any letter case; it reports this keyword, and accepts from then on values of this keyword only. What is no keyword of the list changes nothing.", "quantifier": "all lists, all keywords, all texts and arguments of other types, all values pushed", "why_tests_cant": "The tests call resetKeyword with a few words and do not look at the result; texts and lists are unbounded.", "anchors": ["dn.go: BindDistinguishedNames.resetKeyword, TargetDistinguishedNames.resetKeyword", "oid.go: ObjectIdentifiers.resetKeyword", "attr.go: AttributeTypes.resetKeyword, AttributeTypes.Keyword"]}
{"id": "C108", "title": "An edited stack holds rules, each in its place", "statement": "Whatever calls of Push, Pop, insert, remove, Replace, ReadOnly and reset are made on an empty stack of bind rules, every number below its length shows a bind rule with a known keyword or an initialized stack of bind rules. insert, remove, Replace and Pop move the other entries as their names say and no further. A read-only stack stays as it is until ReadOnly is called again. A stack of target rules holds no more than nine rules after any such calls, and no two of its numbers show the same keyword.", "quantifier": "All finite sequences of calls with all arguments, all numbers, all behaviours of numbers outside of the stack that put nothing new into it.", "why_tests_cant": "The sequences of calls are unbounded and any value may be handed over; the examples of the package make one or two calls.", "anchors": ["bind.go:815-1061", "target.go:574-736"]}
{"id": "C109", "title": "A value is valid exactly if its text says something", "statement": "For attribute types, names, filters, attribute filters, object identifiers, URIs, addresses, host names, days, times of day, strength factors, permissions, attribute pairs and inheritances: Valid returns no error exactly if String returns a text that is neither empty nor one of the markers like <invalid_address_list>.", "quantifier": "All values of these types that can be made with the constructors and setters, for all histories of calls and all readers of dotted numbers.", "why_tests_cant": "Valid and String decide separately whether a value is usable; tests compare them for a few values of each type only.", "anchors": ["attr.go:303-310", "attr.go:432-470", "dn.go:133-171", "filter.go:48-55", "filter.go:316-328", "oid.go:154-174", "uri.go:390-404", "net.go:199-248", "net.go:391-467", "time.go:239-280", "time.go:497-527", "sec.go:208-227", "rights.go:179-205", "rights.go:290-300", "levels.go:84-95"]}
{"id": "C110", "title": "Reading rules does not crash", "statement": "Reading bind rules, a permission bind rule or an instruction that the parser accepted returns a value or an error; it does not crash, whatever the texts of the values are.", "quantifier": "For all trees of conditions, all permission bind rules and instructions the parser can return, all environments.", "why_tests_cant": "A crash hides in one text among all texts of values, in a condition at any depth of a rule, behind any number of readable ones; tests try the texts their authors think of.", "anchors": ["levels.go:157-219", "parse.go:69-97", "parse.go:162-183", "parse.go:331-392", "parse.go:899-937", "parse.go:982-1026", "bind.go:543-631", "attr.go:210-241"]}
{"id": "C111", "title": "Names and addresses are local", "statement": "Whatever a program does, each name and each address with a name has a text that begins with ldap:///, the scheme of the local host, and the part behind it is what was given without this scheme.", "quantifier": "For all programs that make, set, read and print names and addresses and assign exported variables, all texts and keywords.", "why_tests_cant": "What a name prints depends on assignments made anywhere in a program, before or after the name was made; tests run with the value of the start.", "anchors": ["dn.go:10-23", "dn.go:243-249", "dn.go:276-282", "dn.go:400-477", "dn.go:1702-1707", "parse.go:1048-1073", "uri.go:85-131", "uri.go:360-385"]}
{"id": "C112", "title": "What is done to a rule or a list leaves the other rules as they are", "statement": "Let rules be made with Eq and Ne from one list of bind names, target names, attribute types or object identifiers. SetQuoteStyle of one of the rules, or Push and Pop on the list, leaves the text of the other rules as it was.", "quantifier": "All four types of lists with any content, any number of rules made from one list, any sequence of Push, Pop and SetQuoteStyle afterwards; and for rules that share nothing, any program of assignments to any number of variables.", "why_tests_cant": "Whether a rule is disturbed depends on the order of all earlier calls and on which variables share a list; tests make one rule from each list.", "anchors": ["bind.go:758-789", "target.go:330-366", "dn.go:638-671", "dn.go:748-807", "attr.go:555-615", "oid.go:400-414", "oid.go:624-641"]}
{"id": "C113", "title": "Whatever was made of bind rules can be printed", "statement": "Let a program make bind rules and stacks of them with And, Or and Not, and use Push, Pop, Index, Replace and Paren on the stacks it has variables for. Then String of every context it holds ends, and gives the text of a finite tree of rules; and the calls do to these trees what the models of the single calls say.", "quantifier": "every program of such statements, every variable, any depth of nesting", "why_tests_cant": "A stack is a pointer, and the push policy takes every initialized stack, so whether String ends depends on the whole history of pushes; a call that does not end is a crash no test observes as a wrong answer.", "anchors": ["bind.go: BindRules.pushPolicy", "bind.go: And, Or, Not", "bind.go: BindRules.Push, Pop, Index, Replace, Paren", "bind.go: BindRules.String"]}
{"id": "C114", "title": "A call on one stack of bind rules leaves the texts of the others", "statement": "A call of Push, Pop, Replace or Paren on one variable, after any program, leaves the text of every other variable.", "quantifier": "every program, every statement, every other variable, any depth of nesting", "why_tests_cant": "What one stack shows depends on all stacks nested in it and on all variables through which these can be changed; tests print a stack right after it was made.", "anchors": ["bind.go: BindRules.Push, Pop, Replace, Paren", "bind.go: And, Or, Not", "bind.go: BindRules.String"]}
{"id": "C115", "title": "A list of target rules keeps one rule of each keyword, also when rules change after they were pushed", "statement": "Whatever a program does with rules and lists of target rules in memory (making, copying, setting keywords, operators, values and quotation, pushing, popping, indexing), every list has at most nine entries, all keywords in it are known, and no two rules in it have the same keyword. A push takes a rule if and only if its keyword is known, no rule in the list has it at that time, and there is room. Pop and Index return the rule that is kept. Calls on other lists and on rules that are not in the list leave its text alone.", "quantifier": "all programs (sequences of statements), all contents of memory they lead to, all arguments, and all behaviours of go-stackage for indices outside of a list", "why_tests_cant": "The push policy is only asked when a rule is pushed; the list keeps a pointer, so that any later call on any copy of the rule reaches into the list. Tests push rules that are finished.", "anchors": ["target.go:209-217", "target.go:343-454", "target.go:524-553", "target.go:598-629", "target.go:675-736"]}
{"id": "C116", "title": "What an instruction says changes only by calls on the instruction or on its lists", "statement": "Whatever a program does with permissions, bind contexts, permission bind rules, target rules, instructions and lists of these in memory, the text of an instruction changes only by Set on this instruction or by a call on its list of target rules or its list of permission bind rules. Different instructions never share a list, so that a call on one instruction leaves the texts of all others. Set on an instruction in memory does what Set does to the tree of its contents, so long as it is not given its own lists.", "quantifier": "all programs (sequences of statements), all contents of memory they lead to, all arguments, all instructions", "why_tests_cant": "Instructions, rules, permissions and bind contexts are pointers, and one rule can be part of several instructions; whether a call reaches an instruction depends on the whole history of the program. Tests build each instruction from rules of its own.", "anchors": ["ins.go:68-72", "ins.go:303-384", "ins.go:160-170", "pb.go:30-33", "pb.go:87-123", "rights.go:251-270", "target.go:343-454"]}
{"id": "C117", "title": "Lists of permission bind rules stay complete and free of duplicates when rules change after they were pushed", "statement": "Whatever a program does with permissions, bind contexts and permission bind rules in memory, every rule in every list of permission bind rules has a permission and a bind context, no list holds the same rule twice, and no two rules of a list have the same text. A push takes a rule if and only if it has both parts and no rule of the list has its text at that time. Set changes a rule that has a part where it is.", "quantifier": "all programs (sequences of statements), all contents of memory they lead to, all lists and all rules in them", "why_tests_cant": "The policy of a list is asked once, when a rule is pushed; the list keeps a pointer to the rule, the rule to its permission and bind context, and each of them can be changed later through any other copy. Tests push finished rules and look at the list at once.", "anchors": ["pb.go:30-33", "pb.go:87-123", "pb.go:240-339", "pb.go:346-375", "rights.go:251-270"]}
{"id": "C118", "title": "Lists of instructions hold no instruction twice, also when instructions change after they were pushed", "statement": "Whatever a program does with instructions and everything they are made of in memory, every entry of every list of instructions is an instruction that was made, no list holds the same instruction twice, and no two entries of a list have the same text. A push takes an instruction if and only if it was made and no entry has its text at that time. Calls that store nothing the entries are made of leave the text of the list alone.", "quantifier": "all programs (sequences of statements on permissions, bind contexts, rules, instructions and lists), all contents of memory they lead to, all arguments", "why_tests_cant": "The push policy compares the texts of the moment; the list keeps pointers, and everything below an instruction is shared and can be changed later. Tests push each instruction once and do not change it afterwards.", "anchors": ["ins.go:26-53", "ins.go:82-139", "ins.go:177-206", "ins.go:303-384"]}
{"id": "C119", "title": "IsZero tells whether a value is unset", "statement": "For attribute types, attribute pairs, names, filters, attribute filters, object identifiers, URIs, addresses, host names, days, times of day, strength factors, permissions, inheritances, permission bind rules and instructions: IsZero is true exactly if String returns what it returns for a declared variable on which nothing was called.", "quantifier": "every value of these types, however it was made and set", "why_tests_cant": "Every combination of parts, every history of calls and every text have to be told from the unset value; tests look at a few values.", "anchors": ["attr.go:72-78", "attr.go:200-205", "attr.go:465-470", "dn.go:300-310", "dn.go:387-392", "filter.go:32-37", "filter.go:333-339", "ins.go:281-287", "levels.go:77-79", "levels.go:145-150", "net.go:188-194", "net.go:446-452", "oid.go:117-125", "pb.go:75-82", "rights.go:275-285", "sec.go:133-139", "time.go:232-234", "time.go:525-541", "uri.go:293-302"]}
{"id": "C120", "title": "Lists hold valid values only", "statement": "After any history of calls on a list of attribute types, target names, bind names, object identifiers, attribute filters, target rules, permission bind rules or instructions, Valid returns no error for any entry.", "quantifier": "All initial arguments, all histories of Push and Pop with any arguments, all entries.", "why_tests_cant": "Tests push a few good values and look at the count; what a push policy lets through (unset addresses, keywords, rules without an operator) is seen only if every kind of argument is tried after every history.", "anchors": ["attr.go:727-750", "dn.go:1339-1394", "oid.go:513-545", "filter.go:652-680", "target.go:675-698", "pb.go:278-302", "ins.go:82-95"]}
{"id": "C121", "title": "A value may be given as its text", "statement": "Pushing the text of a valid attribute type, name, address, attribute filter, operation or target rule into a list gives the list which pushing the value itself gives.", "quantifier": "All lists, all valid values (names with the keyword of the list; filters with names as attributes), all reference comparisons of case.", "why_tests_cant": "Tests push a few texts and compare the printed list; that text and value are interchangeable for every value and every list, duplicates included, needs a proof over all texts.", "anchors": ["attr.go:791-811", "dn.go:1258-1306", "dn.go:1444-1642", "filter.go:354", "filter.go:500-522", "filter.go:692-723", "target.go:512", "target.go:675-698"]}
{"id": "C122", "title": "Values can be made and printed without a crash", "statement": "Whatever a pair of an attribute and a bind type or value was made of, given later or read from, it can be printed; the text of an inheritance never reports a crash; an object identifier can be made with every keyword.", "quantifier": "All keywords, all argument lists, all histories of Set, all texts, all levels, all readers of identifiers.", "why_tests_cant": "The crash needs a value without text in the second place of a pair, or a keyword of the other kind; tests use filled values and the fitting keyword.", "anchors": ["attr.go:210-241", "attr.go:277-298", "attr.go:489-494", "levels.go:257-266", "oid.go:184-187"]}
{"id": "C123", "title": "Bind rules can be printed without a crash", "statement": "Every bind rule, every nest of bind rules, and the bind rules of every permission bind rule and instruction can be printed without a crash, whether they were made or read.", "quantifier": "For all bind rules with all keywords, operators and values; all nests of bind rules; all trees of conditions, permission bind rules and instructions the parser can return; all environments.", "why_tests_cant": "The crash depends on one value at any depth of a nest; that nothing that was read can crash later follows from the reader printing its result first, for all inputs, which no set of tests shows.", "anchors": ["attr.go:149-166", "attr.go:210-241", "bind.go:345-350", "bind.go:543-631", "bind.go:809-811", "parse.go:69-97", "parse.go:899-937", "parse.go:982-1026"]}
{"id": "C124", "title": "Arguments may be given together or one after another", "statement": "For every method that takes several arguments and stores them (Push of lists and stacks, Set of values, Shift and Unshift): a call with several arguments has the effect of a call with the first of them followed by a call with the others.", "quantifier": "For all values and lists, all arguments of any type, in any number, all readers of texts, and either behaviour of a stack at a refused argument.", "why_tests_cant": "Whether a refused argument hides the ones behind it depends on the values, their order and the number of arguments; the tests push a few good values.", "anchors": ["dn.go:1118-1139", "dn.go:1183-1205", "oid.go:316-329", "attr.go:711-722", "filter.go:278-293", "pb.go:98-123", "pb.go:240-259", "ins.go:342-346", "net.go:133-141", "net.go:332-358", "uri.go:439-477", "levels.go:309-316", "target.go:598-601", "bind.go:875-878"]}
{"id": "C125", "title": "An instruction that is read permits what its text permits", "statement": "An instruction that is read without an error permits a right under given circumstances exactly if its text does: a permission bind rule of the text allows the right and holds, and none denies it and holds.", "quantifier": "For all trees of permissions and conditions the parser can return for an instruction, of any depth and number; all ten rights; all circumstances, that is, all ways in which the conditions may hold or not; all environments.", "why_tests_cant": "A condition that cannot be read, or a permission bind rule behind another one, may change the decision only under circumstances that no test evaluates, since the library itself never evaluates an instruction.", "anchors": ["parse.go:899-937", "parse.go:982-1026", "ins.go:331-386", "pb.go:240-344", "parse.go:817-836"]}
{"id": "C126", "title": "Permission bind rules that are pushed are in force", "statement": "A list of permission bind rules, or an instruction, to which complete permission bind rules are given allows and denies a right under given circumstances exactly if one of the given rules does, so that it permits nothing that they forbid.", "quantifier": "For all permission bind rules with bind rules of any depth, in any number and order, given one by one or in lists; all rights; all circumstances, where whether a bind rule holds may depend on its keyword, operator and the texts of its values.", "why_tests_cant": "A rule is left out if another one has the same text up to case; that two rules with the same text decide differently shows only under particular circumstances, and the tests never push such pairs.", "anchors": ["pb.go:240-259", "pb.go:278-344", "ins.go:331-386"]}
{"id": "C127", "title": "What lists and instructions hold was given to them", "statement": "Whatever is done to a list of target rules, permission bind rules or instructions, or to a stack of bind rules, each member was given to it, itself or as a text; the label and the rules of an instruction were given to it. So nothing is allowed or denied that no given rule allows or denies.", "quantifier": "For all histories of creation, Push and Pop (Set for instructions) with any arguments, all readers of texts, either behaviour of a stack at a refused argument; all rights and circumstances.", "why_tests_cant": "A foreign or altered member could appear after particular sequences of calls only; tests try a few.", "anchors": ["pb.go:240-271", "pb.go:278-302", "target.go:598-612", "target.go:640-700", "bind.go:875-906", "ins.go:82-95", "ins.go:177-206", "ins.go:331-386"]}
{"id": "C128", "title": "An instruction that is read applies where its text does", "statement": "An instruction that is read without an error applies exactly where its text does: where all target rules of the text hold.", "quantifier": "For all sequences of target rules the parser can return, readable or not; all circumstances, that is, all ways in which target rules may hold or not; all environments.", "why_tests_cant": "A target rule that is lost widens the reach of an instruction, which no error shows; the library never applies an instruction, so that tests cannot observe it.", "anchors": ["parse.go:472-514", "parse.go:521-589", "parse.go:1003-1015", "target.go:598-601", "ins.go:371-378"]}
{"id": "C129", "title": "Whether the text printed for an unset value is read as a value", "statement": "A value that is not set prints as a fixed text that names its kind, such as <invalid_permission>. No bind rule and no target rule takes such a text for a value, so that printing an unset value and reading it back cannot produce a value nobody gave.", "quantifier": "For all 18 texts, all keywords of bind rules and target rules, all orders of the map of authentication methods, both settings of their letter case, and every implementation of letter case folding, bit operations and object identifier reading that keeps its contract.", "why_tests_cant": "The tests print a few unset values and read a few wrong texts; they never read back what an unset value prints, and each keyword has its own reader with its own check.", "anchors": ["attr.go:12-13", "dn.go:45-46", "net.go:286", "parse.go:236-266", "parse.go:281-324", "parse.go:352-380", "parse.go:543-580", "err.go:71-76", "time.go:380", "levels.go:428"]}
{"id": "C130", "title": "Adding a rule works in one direction", "statement": "Pushing permission bind rules, setting parts of an instruction and pushing instructions leave in force all that was allowed and denied: what was denied is not permitted afterwards, rules that allow take no permission away, and rules that deny give none. Taking a rule away works the other way round. Further target rules never make an instruction apply where it did not; further bind rules narrow a stack of the word AND and widen one of the word OR; further rights in a permission take nothing away, and removed rights add nothing.", "quantifier": "For all lists, instructions and stacks, all arguments of all types, all readers of text, every truth value of bind rules and target rules, every meaning of a negation of several rules, and every right; integers given as rights are in the range of 16 bits.", "why_tests_cant": "The tests look at the text of a few lists after a push; none asks what a list permits before and after, and no set of cases covers every content and every circumstance.", "anchors": ["pb.go:240-302", "ins.go:82-95", "ins.go:177-206", "ins.go:331-384", "target.go:598-612", "bind.go:1035-1061", "rights.go:74-106"]}
{"id": "C131", "title": "The order in which rules, rights, days and levels are given makes no difference", "statement": "For every two orders of the same arguments: a permission, a set of days and an inheritance hold the same after Shift and after Unshift, and so do the values made by Allow, Deny, DoW and Inherit, and a list of permission bind rules gives and denies the same rights, a list of target rules applies in the same places, and a stack of bind rules holds in the same situations, whichever of the two orders was used to push them.", "quantifier": "Every list of arguments and every permutation of it, every earlier content of the receiver, every right, every answer to the single conditions, every meaning of NOT that does not depend on the order, and either behaviour of the stack after a refused argument.", "why_tests_cant": "A list of n arguments has n! orders, and the receiver, the arguments and the situation in which the result is asked are unbounded; the failing cases need two different values that the package takes for equal.", "anchors": ["rights.go:66-106", "time.go:170-227", "levels.go:309-426", "pb.go:240-311", "target.go:598-720", "bind.go:875-885", "bind.go:1035-1075"]}
{"id": "C132", "title": "A list of instructions prints one instruction per line and is restored from its lines", "statement": "For every list of instructions, the lines of the text of the list are the texts of its instructions, in order, so that two lists with one text hold instructions with the same texts; and pushing the lines, as texts, onto an empty list makes a list with the same text whose instructions have the same labels, target rules and permission bind rules.", "quantifier": "Every list of instructions of any length, every content of the instructions, every printing of go-stackage and every parser that meets the contract on the texts of the list.", "why_tests_cant": "Lists and their texts are unbounded, and the claim depends on what no text inside of an instruction contains; the failing cases are labels chosen to contain what stands between two instructions.", "anchors": ["ins.go:26-53", "ins.go:116-139", "ins.go:153-194", "parse.go:982-1026"]}
{"id": "C133", "title": "Giving an argument again makes no difference", "statement": "For rights, days, levels, IP addresses, distinguished names, object identifiers, attribute types, filters, filter operations, target rules, permission bind rules and instructions: an argument that was given before has no effect when it is given again, whatever was given in the meantime; bind rules are added again, but the stack holds in the same situations.", "quantifier": "Every receiver, every argument, and every list of arguments given between its first and its second use.", "why_tests_cant": "The arguments given in the meantime are unbounded in number and content, and the receiver is arbitrary; checks for duplicates compare texts, so that the claim is about all texts.", "anchors": ["rights.go:79-88", "time.go:170-191", "levels.go:309-338", "net.go:124-141", "dn.go:1118-1205", "oid.go:316-383", "attr.go:711-750", "filter.go:502-522", "filter.go:692-723", "target.go:598-698", "pb.go:240-339", "ins.go:82-194", "bind.go:875-878"]}
{"id": "C134", "title": "The words of the language are taken in any letter case", "statement": "Two texts that differ in nothing but the case of ASCII letters are taken alike: names of rights, days, scopes, authentication methods, strength factors, keywords, bind types, operators and Boolean words find the same value or none; the values of bind rules about days, times, authentication methods and strength factors are read alike, and the words parent, add and delete are known in any letter case.", "quantifier": "All texts and all lists of texts, of any length and content, and all ways to write each of their letters in upper or lower case.", "why_tests_cant": "The texts are unbounded, and a text of n letters can be written in 2 to the n ways; texts with white space, quotation marks and bytes outside ASCII go through several functions before they are compared.", "anchors": ["rights.go:79-129", "parse.go:817-888", "time.go:37-108", "scope.go:155-169", "sec.go:290-338", "kw.go:165-202", "cop.go:130-187", "bind.go:671-693", "parse.go:185-234", "levels.go:157-165", "parse.go:162-183", "filter.go:1122-1138"]}
{"id": "C135", "title": "Rules about days, times and strengths hold where their values say", "statement": "The dayofweek rule made with Eq from a set of days is true on the days given and on no other, and the one made with Ne is its opposite; the rules for weekdays and for the weekend are never both true and never both false. A timeofday rule with any of the six operators is true at the times that stand in this relation to the time given; two time frames that meet are together the frame that spans both and never true at once; the frame from 0000 to 2400 is always true. An ssf rule is true for the strengths that stand in this relation to the factor, so a stronger connection never fails a lower bound that a weaker one meets.", "quantifier": "All lists of day arguments that are names, numbers or sums of the seven constants and name at least one day, all days of the week, all clock times, all integers, all strengths, all six operators, and all assignments of truth to rules that read a rule by its keyword, operator and the text of its value.", "why_tests_cant": "The arguments are unbounded lists and integers, and the truth of a rule is quantified over all days, times, strengths and all ways to give truth to rules.", "anchors": ["time.go:148-165", "time.go:285-301", "time.go:389-470", "sec.go:144-183", "sec.go:210-260"]}
{"id": "C136", "title": "White space around a value makes no difference", "statement": "Values of bind rules and of target rules are read alike with and without white space around them, for every keyword and every number of values: addresses, domain names, attribute pairs, days, times, methods, strength factors, names, scopes, filters, filter operations, attributes and object identifiers.", "quantifier": "All keywords, all lists of values of any length and content, and all amounts of white space, ASCII or not, before and after each of the values.", "why_tests_cant": "Values and the white space around them are unbounded, and Unicode white space takes one to three bytes; some values are split and counted before they are trimmed.", "anchors": ["parse.go:130-385", "parse.go:591-800", "dn.go:893-960", "misc.go:201-220", "misc.go:415-440", "filter.go:997-1062", "oid.go:419-444"]}
{"id": "C137", "title": "No result depends on the order in which maps are walked", "statement": "Go walks maps in an order that changes from one walk to the next. Looking up keywords, operators, bind types, rights, levels and authentication methods, looking into the tables of rule methods of any value, and reading and printing bind rules, permission bind rules and instructions give the same results for every two orders of the maps walked.", "quantifier": "All texts, numbers and values, all rules and nested expressions of any size, and all permutations of each of the maps.", "why_tests_cant": "The order is chosen at random by the Go runtime, separately for each walk; an ambiguous entry would show only in some runs.", "anchors": ["bind.go:20-120", "target.go:20-115", "cop.go:165-190", "kw.go:160-205", "levels.go:285-297", "levels.go:340-355", "rights.go:318-324", "sec.go:80-92", "sec.go:300-330"]}
{"id": "C138", "title": "A value cannot end its quotation", "statement": "The text of a bind rule or target rule that a method of a value makes is empty, or has one pair of quotation marks, which stand around the value at its end: no value holds a quotation mark with which it could end its quotation and go on with further rules. This holds for names, lists of names, URIs, inheritances, attribute pairs, addresses, host names, days, times, methods, strength factors, scopes, filters, attributes, object identifiers and filter operations.", "quantifier": "All texts, numbers and days given to the constructors and to any number of further calls of Set, all operators, all settings of printing.", "why_tests_cant": "What is given is unbounded text; whether a mark gets through depends on the checks of each kind of value.", "anchors": ["dn.go:243-282", "dn.go:467-477", "attr.go:210-241", "attr.go:421-427", "attr.go:489-506", "net.go:124-141", "net.go:143-183", "net.go:323-386", "net.go:490-520", "time.go:239-255", "time.go:497-510", "sec.go:83-92", "sec.go:208-213", "levels.go:257-297", "rights.go:134-216", "bind.go:134-146", "bind.go:345-350"]}
{"id": "C139", "title": "What is read alone is read alike as a part", "statement": "Every kind of text that has a Parse method of its own is read in the same way alone and as a part of something larger: the parts of a permission bind rule, the permission bind rules and target rules of lists and instructions, the bind rules of stacks, the addresses and pairs of conditions about attributes, the operations of lists and the filters of operations. What is refused alone is refused as a part.", "quantifier": "All texts and all results of the parser, all previous contents of the receivers, all lists and stacks.", "why_tests_cant": "The two ways of reading go through different functions, and whether they agree depends on unbounded texts.", "anchors": ["parse.go:25-110", "parse.go:404-500", "parse.go:890-1045", "parse.go:1048-1126", "parse.go:162-183", "attr.go:290-345", "filter.go:997-1145"]}
{"id": "C140", "title": "Values with the same text are interchangeable", "statement": "What is made of values, and what a list takes, depends only on the texts of the values: permission bind rules made from permissions and bind rules, lists of permission bind rules, instructions, operations and filters, lists of instructions, of target rules and of names have the same texts when their parts, or what was pushed and what was there before, had the same texts.", "quantifier": "All values of each kind, all lists, all lists of arguments, all contents before the call.", "why_tests_cant": "Values with the same text need not be the same values, and there are infinitely many; a test compares only the values it makes.", "anchors": ["pb.go:35-60", "pb.go:240-300", "pb.go:346-370", "ins.go:82-194", "ins.go:331-384", "filter.go:621-723", "dn.go:1118-1139", "dn.go:1244-1276", "target.go:598-601", "target.go:675-736"]}
{"id": "C141", "title": "The text of what is read is not much longer than the text that was read", "statement": "Reading does not make texts grow: what is read from a text and printed is not longer than the text, apart from a bounded number of bytes that do not depend on it (the scheme of a name, the parts of an address that are always printed).", "quantifier": "All texts that are read as attribute filters, operations, lists of operations, attribute pairs, inheritance, names and addresses; all keywords and delimiters.", "why_tests_cant": "The bound concerns texts of every length; a test can only try some lengths.", "anchors": ["misc.go:201-219", "misc.go:415-441", "filter.go:1067-1117", "filter.go:845-854", "attr.go:321-352", "dn.go:467-477", "uri.go:85-191", "uri.go:360-385", "filter.go:997-1062", "levels.go:257-283", "parse.go:1048-1126"]}
{"id": "C142", "title": "Reading what was printed, again and again, settles", "statement": "A filter that is read from a text, printed, read again and printed again reaches after finitely many rounds a text that is printed as it is read, or a text that is refused; stored filters that pass through the library repeatedly do not keep changing.", "quantifier": "All texts of attribute filters and of targetfilter values, of every length and content; every number of rounds.", "why_tests_cant": "The number of rounds and the length of the texts are not bounded.", "anchors": ["misc.go:201-219", "misc.go:415-441", "filter.go:298-304", "filter.go:1099-1117", "parse.go:591-605", "parse.go:1114-1126"]}
{"id": "C143", "title": "A valid value stays valid when more is given to it", "statement": "If Valid returns nil for a value, it still does after Set or Shift with any arguments: for permissions and inheritances (also after Unshift), days, IP addresses, host names, bind and target names, attribute bind types or values, permission bind rules, attribute filters, LDAP URIs and instructions. It fails for three of them: an unset search filter or attribute type replaces the one of an attribute filter, a host name of fifteen labels takes a sixteenth and is then invalid, and the text of an LDAP URI without a name replaces a URI with one. For these it holds when the arguments are valid themselves, or as long as the host name has at most fifteen labels, all of its labels being kept. Days may become invalid by Unshift.", "quantifier": "all values for which Valid returns nil, all lists of arguments of the later call, all bit stores and readers within their contracts", "why_tests_cant": "Validity is tested on values as they are made; that no later call takes it away is a statement about every sequence of arguments.", "anchors": ["rights.go:251-300", "time.go:170-191", "levels.go:309-316", "levels.go:403-408", "net.go:124-141", "net.go:323-358", "net.go:457-467", "filter.go:237-244", "filter.go:278-293", "uri.go:390-395", "uri.go:426-477", "dn.go:322-382", "attr.go:138-144", "pb.go:87-123", "ins.go:331-337"]}
{"id": "C144", "title": "Internet addresses are taken, and only these", "statement": "IP and IPAddr.Set take every internet address: four decimal numbers up to 255 with dots, eight groups of one to four hexadecimal digits of which a run may be left out, either with the length of a network behind a slash, the notation in which an IPv6 address ends with an IPv4 address, and patterns with asterisks or with the first numbers only. They take nothing else. Both directions fail: ::ffff:10.0.0.1 is refused, as is every address in that notation, and two slashes are taken. All other addresses are taken; a list of different ones is kept in order, valid, printed with commas and read from that text. What is taken consists of digits, letters a to f, dots, colons, asterisks and slashes, two or more, and never has both dots and colons.", "quantifier": "all texts of addresses, networks and patterns, all lists of different ones, all texts that are taken", "why_tests_cant": "There are 2^32 IPv4 addresses, 2^128 IPv6 addresses and several ways to write each; tests try a handful.", "anchors": ["net.go:17-27", "net.go:124-131", "net.go:133-141", "net.go:143-183", "parse.go:236-256"]}
{"id": "C145", "title": "Instructions that are pushed are in force", "statement": "A list of instructions allows and denies exactly what the instructions pushed onto it do, each where its target rules apply, and permits what it allows and does not deny. It fails: an instruction is taken for one that the list holds if their texts are the same up to case and white space, and And(a, Or(b, c)) and Or(And(a, b), c) print alike, so that of two denials the second is left out and the list permits what it forbids. In all cases the list allows and denies nothing that it did not before and that no instruction offered does. For instructions whose texts show what they mean, no two of which have texts that differ in case or white space alone, the claim holds in full, also for instructions given as text.", "quantifier": "all lists of instructions, all arguments of Push, all readers, all ways in which bind rules and target rules may hold depending on keyword, operator and values, all rights", "why_tests_cant": "Whether a dropped instruction matters shows only under some circumstances; the claim speaks of all circumstances and all lists.", "anchors": ["ins.go:82-95", "ins.go:116-139", "ins.go:160-170", "ins.go:177-194"]}
{"id": "C146", "title": "Target rules and bind rules that are pushed are in force", "statement": "A list of target rules applies exactly where all the usable target rules pushed onto it do. A stack of bind rules of the word AND holds exactly where it did before and all the usable rules pushed do, and one of the word OR where it did before or one of those pushed does. It fails: of two target rules with one keyword the second is left out, so that the list applies where that rule does not; and if the stack library ends a call at a refused argument, the rules after it are left out, for target rules and bind rules alike. In all cases the list of target rules applies at least where the rules pushed one after another do, the stack of the word AND holds at least where it should and that of the word OR at most. The claim holds in full for target rules of which those with one keyword agree, and for bind rules if refused arguments do not end the call or there are none.", "quantifier": "all arguments of Push, all stacks of bind rules, all ways in which target rules and bind rules may hold", "why_tests_cant": "A rule that is left out widens access only under circumstances in which it would have failed; tests look at the length or the text of the list, under few arguments.", "anchors": ["target.go:524-553", "target.go:598-601", "target.go:675-698", "bind.go:420-525", "bind.go:875-878", "bind.go:1035-1061"]}
{"id": "C147", "title": "Taking out, putting in and replacing a rule changes what is in force by that rule alone", "statement": "A list of permission bind rules or of instructions allows and denies what it does after Pop together with what the value does that Pop returned, and nothing else; a list of target rules that is not empty applies where it does after Pop and the rule that Pop returned does; a stack of bind rules of the word AND holds where it does after Pop and what was returned holds, one of the word OR where either holds. The same is true of an entry that remove takes from its place in a stack of bind rules, and of a context that insert puts there; Replace does what remove and insert at this place do.", "quantifier": "all lists and stacks, all places in them, all ways in which bind rules and target rules may hold, all rights", "why_tests_cant": "An edit that touches a second rule shows only where the two rules differ in what they allow; the claim speaks of all circumstances.", "anchors": ["bind.go:888-906", "bind.go:911-914", "bind.go:919-933", "bind.go:984-991", "target.go:608-612", "pb.go:266-273", "ins.go:199-206"]}
{"id": "C148", "title": "Pop gives back what was pushed, the last first", "statement": "After values were pushed onto a list, repeated calls of Pop return what the list took of them, the last first, and then the list is as it was before: for stacks of bind rules all usable arguments, or some of the first of them if a refused argument ends the call; for target rules the first of each keyword, for permission bind rules and target names the first of each text; for instructions some of those given, as such or as text, in this order. (Lists of bind names do not: C35.)", "quantifier": "all stacks of bind rules and all lists of instructions, and for target rules, permission bind rules and target names all sequences of pushes onto an empty list; all arguments", "why_tests_cant": "Tests pop once or twice; the claim speaks of sequences of any length.", "anchors": ["bind.go:875-878", "bind.go:888-906", "target.go:598-601", "target.go:608-612", "pb.go:266-273", "ins.go:177-194", "ins.go:199-206", "dn.go:1325-1334"]}
{"id": "C149", "title": "Rules that compare as equal mean the same", "statement": "Bind rules, permission bind rules and target rules, and lists of these, that Compare tells to be equal, and instructions to which Hash gives the same digest, hold under the same circumstances, allow and deny the same rights and apply to the same targets, if the digest has no collisions. It fails: And(a, Or(b, c)) and Or(And(a, b), c) print alike and compare as equal, and so do denials with them; and one target rule whose value has quotation marks compares as equal to two. It holds for bind rules whose text shows how their parts belong together and for values without quotation marks. Rules with the same text, if it is not empty, compare as equal whatever the digest.", "quantifier": "all bind contexts, permission bind rules, target rules and lists of them, all digests without collisions, all ways in which rules may hold depending on keyword, operator and values, all rights", "why_tests_cant": "Compare is offered for the review of changes; whether it hides a change of meaning cannot be seen from pairs that were thought of.", "anchors": ["misc.go:246-248", "misc.go:250-261", "misc.go:273-294", "misc.go:301-319", "bind.go:260-262", "bind.go:399-401", "pb.go:162-164", "pb.go:233-235", "target.go:278-280", "target.go:495-497"]}
