{
 "claims": [
  {
   "property": "C01",
   "status": "proved",
   "theorems": [
    "Verif.Rights.C01_disposition_kept",
    "Verif.Rights.C01_disposition_made",
    "Verif.Rights.C01_from_constructor",
    "Verif.Rights.C01_last_mention_wins",
    "Verif.Rights.C01_unknown_ignored",
    "Verif.Rights.C01_unknown_not_held"
   ],
   "note": "Arbitrary histories; out-of-range integers excluded (go-shifty behaviour unspecified)."
  },
  {
   "property": "C02",
   "status": "proved",
   "theorems": [
    "Verif.Rights.C02_reachable",
    "Verif.Rights.C02_text",
    "Verif.Rights.C02_text_injective"
   ],
   "note": "For permissions over the ten defined rights; C02_reachable shows these are all that can be built without undefined bits."
  },
  {
   "property": "C03",
   "status": "proved",
   "theorems": [
    "Verif.Rights.C03_round_trip",
    "Verif.Rights.C03_round_trip_exact"
   ],
   "note": ""
  },
  {
   "property": "C04",
   "status": "proved",
   "theorems": [
    "Verif.Rights.C04_reader"
   ],
   "note": ""
  },
  {
   "property": "C05",
   "status": "proved",
   "theorems": [
    "Verif.Rights.C05_len",
    "Verif.Rights.C05_valid"
   ],
   "note": ""
  },
  {
   "property": "C06",
   "status": "proved",
   "theorems": [
    "Verif.Levels.C06_all_levels",
    "Verif.Levels.C06_from_constructor",
    "Verif.Levels.C06_last_mention_wins",
    "Verif.Levels.C06_zero"
   ],
   "note": ""
  },
  {
   "property": "C07",
   "status": "proved",
   "theorems": [
    "Verif.Levels.C07_from_constructor",
    "Verif.Levels.C07_round_trip"
   ],
   "note": ""
  },
  {
   "property": "C08",
   "status": "partial",
   "theorems": [
    "Verif.Levels.C08_counterexample",
    "Verif.Levels.C08_panics_partial"
   ],
   "note": "Fails: parseInheritance indexes past the end when the first ] is the last byte. Proved: it panics exactly on those texts."
  },
  {
   "property": "C09",
   "status": "proved",
   "theorems": [
    "Verif.Levels.C09_accepted",
    "Verif.Levels.C09_result",
    "Verif.Uri.C09_exact"
   ],
   "note": ""
  },
  {
   "property": "C10",
   "status": "proved",
   "theorems": [
    "Verif.Time.C10_from_constructor",
    "Verif.Time.C10_last_mention_wins"
   ],
   "note": ""
  },
  {
   "property": "C11",
   "status": "proved",
   "theorems": [
    "Verif.Time.C11_reachable",
    "Verif.Time.C11_round_trip",
    "Verif.Time.C11_text",
    "Verif.Time.C11_text_injective"
   ],
   "note": ""
  },
  {
   "property": "C12",
   "status": "proved",
   "theorems": [
    "Verif.Time.C12_bind_accepts",
    "Verif.Time.C12_bind_reads",
    "Verif.Time.C12_bind_value",
    "Verif.Time.C12_exact",
    "Verif.Time.C12_refuses"
   ],
   "note": ""
  },
  {
   "property": "C13",
   "status": "proved",
   "theorems": [
    "Verif.Time.C13_digits_survive",
    "Verif.Time.C13_time"
   ],
   "note": ""
  },
  {
   "property": "C14",
   "status": "proved",
   "theorems": [
    "Verif.Time.C14_accepts_clock",
    "Verif.Time.C14_accepts_only_clock"
   ],
   "note": ""
  },
  {
   "property": "C15",
   "status": "partial",
   "theorems": [
    "Verif.Time.C15_counterexample",
    "Verif.Time.C15_only_midnight_partial",
    "Verif.Time.C15_other_partial"
   ],
   "note": "Fails: any text that is no clock time gives a valid TimeOfDay that prints 0000. Proved instead that it can never be another time."
  },
  {
   "property": "C16",
   "status": "proved",
   "theorems": [
    "Verif.Bind.C16_from",
    "Verif.Bind.C16_timeframe"
   ],
   "note": ""
  },
  {
   "property": "C17",
   "status": "proved",
   "theorems": [
    "Verif.C17_bind_keywords",
    "Verif.C17_bind_types",
    "Verif.C17_invalid_text",
    "Verif.C17_target_keywords"
   ],
   "note": ""
  },
  {
   "property": "C18",
   "status": "proved",
   "theorems": [
    "Verif.C18_bind_set_operator",
    "Verif.C18_target_set_operator",
    "Verif.C18_uninitialised",
    "Verif.C18_unknown_keyword"
   ],
   "note": ""
  },
  {
   "property": "C19",
   "status": "proved",
   "theorems": [
    "Verif.C19_compare",
    "Verif.C19_lookup"
   ],
   "note": ""
  },
  {
   "property": "C20",
   "status": "partial",
   "theorems": [
    "Verif.C20_bind_counterexample",
    "Verif.C20_bind_index_partial",
    "Verif.C20_target_contains",
    "Verif.C20_target_index",
    "Verif.C20_zero"
   ],
   "note": "Holds for target rule methods. Fails for bind rule methods: numbers are taken modulo 256 (257 finds Eq); C20_bind_index_partial gives the exact behaviour."
  },
  {
   "property": "C21",
   "status": "partial",
   "theorems": [
    "Verif.SearchScope.C21_counterexample",
    "Verif.SearchScope.C21_number",
    "Verif.SearchScope.C21_reader",
    "Verif.SearchScope.C21_target_rule",
    "Verif.SearchScope.C21_target_text",
    "Verif.SearchScope.C21_uri_text_partial"
   ],
   "note": "Fails for LDAP URI text: the subordinate scope is written base and read back as base. Proved for all other scopes, and for the target rule notation of all scopes."
  },
  {
   "property": "C22",
   "status": "partial",
   "theorems": [
    "Verif.Rules.C22_counterexample",
    "Verif.Rules.C22_read",
    "Verif.Rules.C22_rules_partial"
   ],
   "note": "Fails for values above four: SearchScope(5).Eq() is valid and prints an empty scope. Proved: every defined scope gives a usable rule with the right text, the zero scope none, and Ne never does."
  },
  {
   "property": "C23",
   "status": "proved",
   "theorems": [
    "Verif.Net.C23_bind_value",
    "Verif.Net.C23_expected",
    "Verif.Net.C23_history",
    "Verif.Net.C23_valid"
   ],
   "note": ""
  },
  {
   "property": "C24",
   "status": "partial",
   "theorems": [
    "Verif.Net.C24_all_or_nothing",
    "Verif.Net.C24_counterexample",
    "Verif.Net.C24_labels_partial"
   ],
   "note": "All-or-nothing is proved in full. The labels claim fails for the documented letters a-z and A-Z: bytes that are ISO 8859-1 letters are taken too; proved with these letters included."
  },
  {
   "property": "C25",
   "status": "partial",
   "theorems": [
    "Verif.Net.C25_counterexample",
    "Verif.Net.C25_partial"
   ],
   "note": "Fails both ways: Valid squares the number of labels instead of counting characters. Proved: accepted exactly with 2 to 15 labels; names of 2 to 15 labels within 253 characters are accepted and printed unchanged."
  },
  {
   "property": "C26",
   "status": "proved",
   "theorems": [
    "Verif.Sec.C26_bind_accepts",
    "Verif.Sec.C26_bind_value",
    "Verif.Sec.C26_from_int",
    "Verif.Sec.C26_from_text",
    "Verif.Sec.C26_negative_text",
    "Verif.Sec.C26_prints_number",
    "Verif.Sec.C26_words"
   ],
   "note": ""
  },
  {
   "property": "C27",
   "status": "partial",
   "theorems": [
    "Verif.Sec.C27_counterexample",
    "Verif.Sec.C27_exact_partial",
    "Verif.Sec.C27_never_rises_partial"
   ],
   "note": "Fails: bad text resets a factor to 0, text starting with a number above 64 bits gives 256, and a foreign type gives 1 on a nil factor. Proved: no rise from text up to 19 bytes, or from foreign types on a non-nil factor."
  },
  {
   "property": "C28",
   "status": "partial",
   "theorems": [
    "Verif.Sec.C28_bind_count",
    "Verif.Sec.C28_bind_value",
    "Verif.Sec.C28_by_name",
    "Verif.Sec.C28_by_number_partial",
    "Verif.Sec.C28_counterexample",
    "Verif.Sec.C28_round_trip"
   ],
   "note": "Names are proved in full. Numbers fail for EXTERNAL and DIGEST-MD5, which are swapped; proved for all others."
  },
  {
   "property": "C29",
   "status": "partial",
   "theorems": [
    "Verif.Attr.C29_bind_type",
    "Verif.Attr.C29_counterexample",
    "Verif.Attr.C29_empty_value_counterexample",
    "Verif.Attr.C29_refused",
    "Verif.Attr.C29_round_trip_partial",
    "Verif.Uri.C29_exact"
   ],
   "note": "Fails in two ways: a value spelled like a bind type in another letter case is printed in capitals, and an empty value is accepted (printing it panics). Proved: bind types, all other values, and exact refusal otherwise."
  },
  {
   "property": "C30",
   "status": "partial",
   "theorems": [
    "Verif.Attr.C30_constructors",
    "Verif.Attr.C30_counterexample",
    "Verif.Attr.C30_default",
    "Verif.Attr.C30_inheritance_counterexample",
    "Verif.Attr.C30_keyword_partial",
    "Verif.Uri.C30_uri_partial"
   ],
   "note": "Fails: AttributeBindTypeOrValue.Parse passes its keyword slice as one argument, and inheritance drops the keyword, so groupattr becomes userattr. Proved for parseATBTV, plain pairs in bind rules, and userattr everywhere."
  },
  {
   "property": "C31",
   "status": "partial",
   "theorems": [
    "Verif.Attr.C31_contains_partial",
    "Verif.Attr.C31_counterexample",
    "Verif.Attr.C31_entries_partial"
   ],
   "note": "Fails: TAs and UAs bind the push policy to the zero value, so it never sees the entries. Proved: exact content after any history, and Contains is right."
  },
  {
   "property": "C32",
   "status": "proved",
   "theorems": [
    "Verif.Attr.C32_ascii",
    "Verif.Attr.C32_beyond_ascii",
    "Verif.Attr.C32_identifier",
    "Verif.Attr.C32_type"
   ],
   "note": ""
  },
  {
   "property": "C33",
   "status": "proved",
   "theorems": [
    "Verif.DN.C33_again",
    "Verif.DN.C33_constructors",
    "Verif.DN.C33_print",
    "Verif.DN.C33_set",
    "Verif.DN.C33_set_keyword"
   ],
   "note": ""
  },
  {
   "property": "C34",
   "status": "proved",
   "theorems": [
    "Verif.DN.C34_bind_constructors",
    "Verif.DN.C34_bind_entries",
    "Verif.DN.C34_bind_invariant",
    "Verif.DN.C34_contains",
    "Verif.DN.C34_target_constructors",
    "Verif.DN.C34_target_entries",
    "Verif.DN.C34_target_invariant"
   ],
   "note": ""
  },
  {
   "property": "C35",
   "status": "partial",
   "theorems": [
    "Verif.DN.C35_bind_partial",
    "Verif.DN.C35_counterexample",
    "Verif.DN.C35_push_pop_partial",
    "Verif.DN.C35_removes",
    "Verif.DN.C35_target",
    "Verif.DN.C35_target_push_pop"
   ],
   "note": "Fails for bind DN lists that hold an LDAP URI: Pop removes it and returns a zero name. Proved for names, and in full for target lists."
  },
  {
   "property": "C36",
   "status": "partial",
   "theorems": [
    "Verif.DN.C36_bind_partial",
    "Verif.DN.C36_counterexample",
    "Verif.DN.C36_good",
    "Verif.DN.C36_short",
    "Verif.DN.C36_syntax_partial",
    "Verif.DN.C36_target_partial"
   ],
   "note": "Fails: a text without any = is taken as a DN, and only the alias texts with two schemes are told apart. Proved: exactly what is accepted and refused."
  },
  {
   "property": "C37",
   "status": "proved",
   "theorems": [
    "Verif.Oid.C37_constructors",
    "Verif.Oid.C37_contains",
    "Verif.Oid.C37_entries",
    "Verif.Oid.C37_invariant",
    "Verif.Oid.C37_keyword_kept",
    "Verif.Oid.C37_several",
    "Verif.Oid.C37_single"
   ],
   "note": ""
  },
  {
   "property": "C38",
   "status": "partial",
   "theorems": [
    "Verif.Uri.C38_attrs_partial",
    "Verif.Uri.C38_counterexample",
    "Verif.Uri.C38_counterexample_scope",
    "Verif.Uri.C38_dn",
    "Verif.Uri.C38_filter",
    "Verif.Uri.C38_filter_set",
    "Verif.Uri.C38_scope_partial",
    "Verif.Uri.C38_text"
   ],
   "note": "Fails: attributes are only printed next to a filter, and the scope subordinate prints as base. Proved in full for the name and the filter, for attributes next to a filter, and for the other scopes."
  },
  {
   "property": "C39",
   "status": "partial",
   "theorems": [
    "Verif.Uri.C39_counterexample",
    "Verif.Uri.C39_counterexample_group",
    "Verif.Uri.C39_counterexample_scope",
    "Verif.Uri.C39_pair",
    "Verif.Uri.C39_round_trip_partial",
    "Verif.Uri.C39_text_partial"
   ],
   "note": "Fails: a filter with a question mark is cut there, subordinate is read as base, and a groupdn name is read as userdn. Proved for userdn names, the other scopes and filters without question mark; texts for every keyword and scope; attribute pairs."
  },
  {
   "property": "C40",
   "status": "partial",
   "theorems": [
    "Verif.Filter.C40_counterexample",
    "Verif.Filter.C40_counterexample_short",
    "Verif.Filter.C40_parse_partial",
    "Verif.Filter.C40_read_partial",
    "Verif.Filter.C40_round_trip",
    "Verif.Filter.C40_text"
   ],
   "note": "Fails: an empty filter is accepted by the reader, and AttributeFilter.Parse refuses texts below five bytes such as cn:x. Proved: text, round trip for every valid name and non-empty filter, exactly what is read and refused; Parse for clean filters."
  },
  {
   "property": "C41",
   "status": "partial",
   "theorems": [
    "Verif.Filter.C41_content",
    "Verif.Filter.C41_counterexample",
    "Verif.Filter.C41_numbers",
    "Verif.Filter.C41_operation",
    "Verif.Filter.C41_round_trip_partial",
    "Verif.Filter.C41_text",
    "Verif.Filter.C41_unnamed"
   ],
   "note": "Fails: white space in a filter is condensed. Proved: the text of every operation, the content after any history of pushes, the operation; round trip for filters without such white space."
  },
  {
   "property": "C42",
   "status": "partial",
   "theorems": [
    "Verif.Filter.C42_counterexample",
    "Verif.Filter.C42_counterexample_rule",
    "Verif.Filter.C42_list_partial",
    "Verif.Filter.C42_rule_partial",
    "Verif.Filter.C42_single"
   ],
   "note": "Fails in lists and rules: commas, semicolons and the words add= and delete= in a filter are taken for syntax. Proved in full for single operations with clean filters; for lists and rules without these texts in filters."
  },
  {
   "property": "C43",
   "status": "proved",
   "theorems": [
    "Verif.Rules.C43_contains",
    "Verif.Rules.C43_content",
    "Verif.Rules.C43_invariant",
    "Verif.Rules.C43_pop",
    "Verif.Rules.C43_push",
    "Verif.Rules.C43_push_many"
   ],
   "note": ""
  },
  {
   "property": "C44",
   "status": "partial",
   "theorems": [
    "Verif.Rules.C44_counterexample",
    "Verif.Rules.C44_first_partial",
    "Verif.Rules.C44_single_partial"
   ],
   "note": "Fails: every turn of the loop reads the first value, so cn || sn is read as cn || cn. Proved: exactly what is read, and correctness for a single value."
  },
  {
   "property": "C45",
   "status": "partial",
   "theorems": [
    "Verif.Rules.C45_counterexample",
    "Verif.Rules.C45_distinct_partial",
    "Verif.Rules.C45_kept",
    "Verif.Rules.C45_rule"
   ],
   "note": "Fails when two rules have one keyword: the second is dropped without being read. Proved in full for distinct keywords, and in general that the first rule of each keyword is read."
  },
  {
   "property": "C46",
   "status": "partial",
   "theorems": [
    "Verif.Bind.C46_condition",
    "Verif.Bind.C46_counterexample",
    "Verif.Bind.C46_cut_partial",
    "Verif.Bind.C46_empty",
    "Verif.Bind.C46_readable_partial",
    "Verif.Bind.C46_stray",
    "Verif.Bind.C46_succeeds"
   ],
   "note": "Fails: an unreadable condition ends the loop without error, so it and all entries after it in its stack are dropped (ssf >= \"71\" AND dayofweek = \"xyz\" is read as ssf >= \"71\"). Proved: exact meaning and rules of the result for every tree; the full claim when all conditions can be read, and that such trees are read unless the reading crashes (C110)."
  },
  {
   "property": "C47",
   "status": "proved",
   "theorems": [
    "Verif.Bind.C47_entries",
    "Verif.Bind.C47_kept",
    "Verif.Bind.C47_meaning"
   ],
   "note": ""
  },
  {
   "property": "C48",
   "status": "partial",
   "theorems": [
    "Verif.Bind.C48_counterexample",
    "Verif.Bind.C48_entries_partial",
    "Verif.Bind.C48_pop",
    "Verif.Bind.C48_push"
   ],
   "note": "Fails: the error of Valid is overwritten, so a rule without operator or expression is accepted if its keyword is known. Proved: exactly what is accepted, over any history."
  },
  {
   "property": "C49",
   "status": "proved",
   "theorems": [
    "Verif.PB.C49_content",
    "Verif.PB.C49_invariant",
    "Verif.PB.C49_pop",
    "Verif.PB.C49_push",
    "Verif.PB.C49_push_many"
   ],
   "note": ""
  },
  {
   "property": "C50",
   "status": "proved",
   "theorems": [
    "Verif.PB.C50_make",
    "Verif.PB.C50_parts",
    "Verif.PB.C50_text"
   ],
   "note": ""
  },
  {
   "property": "C51",
   "status": "proved",
   "theorems": [
    "Verif.Ins.C51_fixed",
    "Verif.Ins.C51_label",
    "Verif.Ins.C51_lists",
    "Verif.Ins.C51_rules",
    "Verif.Ins.C51_targets"
   ],
   "note": ""
  },
  {
   "property": "C52",
   "status": "partial",
   "theorems": [
    "Verif.Ins.C52_condensed_partial",
    "Verif.Ins.C52_counterexample",
    "Verif.Ins.C52_each",
    "Verif.Ins.C52_push"
   ],
   "note": "Fails: contains condenses the white space of the candidate only, so an instruction whose text is not its own condensed form (label with two spaces, or with a byte above 127) is accepted any number of times. Proved: distinct for texts that are condensed, and what each push does."
  },
  {
   "property": "C53",
   "status": "partial",
   "theorems": [
    "Verif.Ins.C53_counterexample",
    "Verif.Ins.C53_front_partial",
    "Verif.Ins.C53_no_error",
    "Verif.Ins.C53_readable_partial"
   ],
   "note": "Fails: an unreadable permission bind rule and everything after it are dropped without error, and so is a second target rule with the keyword of an earlier one. Proved when everything can be read and the keywords differ; exactly which permission bind rules are left; that no error is ever reported."
  },
  {
   "property": "C54",
   "status": "partial",
   "theorems": [
    "Verif.Misc.C54_ascii_partial",
    "Verif.Misc.C54_blanks_partial",
    "Verif.Misc.C54_counterexample",
    "Verif.Misc.C54_exact_partial"
   ],
   "note": "Fails above ASCII: condenseWHSP re-encodes every byte above 127 as a character. Proved in full for ASCII text; the exact result (C54_exact_partial) and the absence of tabs, line feeds and double spaces for every text."
  },
  {
   "property": "C55",
   "status": "proved",
   "theorems": [
    "Verif.Misc.C55_at_most_one",
    "Verif.Misc.C55_exact",
    "Verif.Misc.C55_plain",
    "Verif.Misc.C55_short",
    "Verif.Misc.C55_undo"
   ],
   "note": ""
  },
  {
   "property": "C56",
   "status": "proved",
   "theorems": [
    "Verif.Misc.C56_equal",
    "Verif.Misc.C56_exact",
    "Verif.Misc.C56_symmetric"
   ],
   "note": ""
  },
  {
   "property": "C57",
   "status": "partial",
   "theorems": [
    "Verif.C57_counterexample",
    "Verif.C57_fixed_keyword_partial",
    "Verif.C57_history_partial",
    "Verif.C57_target_valid"
   ],
   "note": "Fails when the keyword of a bind rule is changed after its operator (userdn > ...). Holds while the keyword is fixed, and for target rules through Valid."
  },
  {
   "property": "C58",
   "status": "partial",
   "theorems": [
    "Verif.Net.C58_bind_value_partial",
    "Verif.Net.C58_counterexample"
   ],
   "note": "Fails for the text <invalid_fqdn_or_label>, which is accepted and gives an empty name. Proved for every other value."
  },
  {
   "property": "C59",
   "status": "partial",
   "theorems": [
    "Verif.Oid.C59_counterexample",
    "Verif.Oid.C59_good_values",
    "Verif.Oid.C59_values_partial"
   ],
   "note": "Fails: a value that cannot be read, and all values behind it, are dropped without error as soon as one value came before. Proved: exactly what is kept; nothing is lost when all values can be read."
  },
  {
   "property": "C60",
   "status": "partial",
   "theorems": [
    "Verif.Filter.C60_comma_partial",
    "Verif.Filter.C60_counterexample",
    "Verif.Filter.C60_last",
    "Verif.Filter.C60_semicolon_partial"
   ],
   "note": "Fails for semicolons: the list that was read prints with commas. Proved for commas, and for semicolons after SetDelimiter."
  },
  {
   "property": "C61",
   "status": "partial",
   "theorems": [
    "Verif.Rules.C61_counterexample",
    "Verif.Rules.C61_list_partial",
    "Verif.Rules.C61_single"
   ],
   "note": "Fails for a single value with the style of separate quotation: it has no marks at all. Proved for two and more values, for the other style, and for values that are no lists."
  },
  {
   "property": "C62",
   "status": "proved",
   "theorems": [
    "Verif.Rules.C62_target",
    "Verif.Rules.C62_target_valid"
   ],
   "note": ""
  },
  {
   "property": "C63",
   "status": "partial",
   "theorems": [
    "Verif.Rules.C63_counterexample",
    "Verif.Rules.C63_readable_partial"
   ],
   "note": "Fails: the error is ignored and the rule is returned with the unread value. Proved for readable rules."
  },
  {
   "property": "C64",
   "status": "partial",
   "theorems": [
    "Verif.Bind.C64_counterexample",
    "Verif.Bind.C64_days_partial"
   ],
   "note": "Fails for numbers such as 257, which are taken modulo 256 (see C20). Proved with numbers taken modulo 256. The numerals 62 and 65 in the documentation are not the values of these days, which are 124 and 130."
  },
  {
   "property": "C65",
   "status": "partial",
   "theorems": [
    "Verif.Bind.C65_counterexample",
    "Verif.Bind.C65_unread_partial"
   ],
   "note": "Fails: ParseBindRule returns the value of the parser unread. Proved that keyword, operator and everything but the value are as reading would leave them."
  },
  {
   "property": "C66",
   "status": "partial",
   "theorems": [
    "Verif.Bind.C66_counterexample",
    "Verif.Bind.C66_known_partial",
    "Verif.Bind.C66_unknown_partial"
   ],
   "note": "Fails for unknown keywords: BR(\"blarg\", Eq, x) passes Valid. Proved for all known keywords; for the others it is said what BR makes of them."
  },
  {
   "property": "C67",
   "status": "partial",
   "theorems": [
    "Verif.PB.C67_counterexample",
    "Verif.PB.C67_parts_partial",
    "Verif.PB.C67_read_partial"
   ],
   "note": "Fails: Valid looks only whether there is a bind context, not whether it is valid or empty. Proved: both parts are there; usable for rules that were read."
  },
  {
   "property": "C68",
   "status": "proved",
   "theorems": [
    "Verif.PB.C68_fronts",
    "Verif.PB.C68_set"
   ],
   "note": ""
  },
  {
   "property": "C69",
   "status": "partial",
   "theorems": [
    "Verif.Ins.C69_counterexample",
    "Verif.Ins.C69_parts_partial"
   ],
   "note": "Fails: Valid looks only whether the pointer is nil. Proved: nothing but nil instructions is refused."
  },
  {
   "property": "C70",
   "status": "partial",
   "theorems": [
    "Verif.Ins.C70_counterexample",
    "Verif.Ins.C70_label_partial",
    "Verif.Ins.C70_targets_partial"
   ],
   "note": "Fails: quotation marks in the label are printed as they are. Proved for labels without quotation mark."
  },
  {
   "property": "C71",
   "status": "partial",
   "theorems": [
    "Verif.Builders.C71_bind",
    "Verif.Builders.C71_counterexample",
    "Verif.Builders.C71_target_partial"
   ],
   "note": "Bind rules proved in full. Fails for target rules: the tables of filter operations list Ne, which targattrfilters does not allow. Proved for all other types."
  },
  {
   "property": "C72",
   "status": "partial",
   "theorems": [
    "Verif.Builders.C72_bind_counterexample",
    "Verif.Builders.C72_bind_partial",
    "Verif.Builders.C72_bind_unusable",
    "Verif.Builders.C72_target_counterexample",
    "Verif.Builders.C72_target_partial",
    "Verif.Builders.C72_target_unusable"
   ],
   "note": "Fails for URIs (a name with role keyword, or a pair with keyword groupattr, gives a userdn or groupdn rule) and for Ne of filter operations, which gives no rule. Proved for everything else, and for bind and target rules alike that unusable values make no valid rules."
  },
  {
   "property": "C73",
   "status": "partial",
   "theorems": [
    "Verif.Builders.C73_bind_partial",
    "Verif.Builders.C73_counterexample",
    "Verif.Builders.C73_missing",
    "Verif.Builders.C73_target_partial"
   ],
   "note": "Fails: a zero pair filled by Set has a valid rule for Eq (with a keyword that does not exist) and none for Ne; Ne of filter operations. Proved as an equivalence for values with a known keyword and all URIs; for filter operations exactly when Valid reports no error; and that no missing method is called."
  },
  {
   "property": "C74",
   "status": "partial",
   "theorems": [
    "Verif.Builders.C74_counterexample",
    "Verif.Builders.C74_method",
    "Verif.Builders.C74_numbers_partial"
   ],
   "note": "Fails: the documentation numbers Le as four and Gt as five, the constants the other way round, so four finds Gt. Proved for the other numbers, short and long names, and that each finds the method of this operator."
  },
  {
   "property": "C75",
   "status": "partial",
   "theorems": [
    "Verif.Bind.C75_counterexample",
    "Verif.Bind.C75_meaning_partial",
    "Verif.Bind.C75_negation_counterexample",
    "Verif.Bind.C75_quotes_counterexample"
   ],
   "note": "Fails: a stack within a stack is printed without parentheses unless they were asked for, so And(a,Or(b,c)) and Or(And(a,b),c) print the same; quotation marks in a value are printed as they are. Not(And(a,b)) and And(Not(a),b) print the same as well (C75_negation_counterexample). Proved (C75_meaning_partial) when no value has a quotation mark, no disjunction without parentheses is within a conjunction and neither is negated without parentheses: then the text shows the meaning, where NOT binds more tightly than AND and AND more tightly than OR."
  },
  {
   "property": "C76",
   "status": "partial",
   "theorems": [
    "Verif.Reading.C76_bytes_counterexample",
    "Verif.Reading.C76_counterexample",
    "Verif.Reading.C76_written_partial"
   ],
   "note": "Fails: the whole text is condensed, labels and values included, and bytes beyond ASCII are encoded a second time. Proved for ASCII texts without tabs, line feeds and runs of blanks between quotation marks."
  },
  {
   "property": "C77",
   "status": "proved",
   "theorems": [
    "Verif.Reading.C77_bind",
    "Verif.Reading.C77_bind_cut",
    "Verif.Reading.C77_bind_says",
    "Verif.Reading.C77_instruction",
    "Verif.Reading.C77_instruction_says",
    "Verif.Reading.C77_last",
    "Verif.Reading.C77_permission",
    "Verif.Reading.C77_permission_says",
    "Verif.Reading.C77_refused",
    "Verif.Reading.C77_targets",
    "Verif.Reading.C77_targets_says",
    "Verif.Single.C77_bind_one",
    "Verif.Single.C77_filter",
    "Verif.Single.C77_operation",
    "Verif.Single.C77_operations",
    "Verif.Single.C77_pair",
    "Verif.Single.C77_permission_one",
    "Verif.Single.C77_rule_one",
    "Verif.Single.C77_single",
    "Verif.Single.C77_target_one",
    "Verif.Single.C77_uri"
   ],
   "note": "Proved for all thirteen Parse methods, including what the receiver holds afterwards. A panic is told apart from an error. Which texts are read, and as what, is the subject of C45, C46, C63, C65, C78, C89 and C90."
  },
  {
   "property": "C78",
   "status": "partial",
   "theorems": [
    "Verif.Filter.C78_contains",
    "Verif.Filter.C78_counterexample",
    "Verif.Filter.C78_kept",
    "Verif.Filter.C78_list_partial",
    "Verif.Filter.C78_read_partial"
   ],
   "note": "Fails: a pair with nothing after its colon is left out without an error, so add=cn: is read as an operation without filters. Proved with such pairs left out, for operations and for lists; the invariant of lists is proved in full."
  },
  {
   "property": "C79",
   "status": "partial",
   "theorems": [
    "Verif.C79_commas",
    "Verif.C79_counterexample_operations",
    "Verif.C79_counterexample_permissions",
    "Verif.C79_operations_partial",
    "Verif.C79_permissions_partial",
    "Verif.C79_texts_dropped"
   ],
   "note": "Fails: texts given to AFOs and PBRs are dropped, because they go to the stack and not to Push. Proved for arguments that are not texts; if the stack ends a call at the first refusal, for the arguments before it."
  },
  {
   "property": "C80",
   "status": "proved",
   "theorems": [
    "Verif.Rules.C80_attributes",
    "Verif.Rules.C80_filter",
    "Verif.Rules.C80_identifiers",
    "Verif.Rules.C80_names",
    "Verif.Rules.C80_operations",
    "Verif.Rules.C80_scope",
    "Verif.Rules.C80_type",
    "Verif.Rules.C80_value"
   ],
   "note": "Proved for all keywords, by a relation between texts and values that uses no reader of the model (C80_value). The lists of attributes and of object identifiers have the defects of C44 and C59."
  },
  {
   "property": "C81",
   "status": "partial",
   "theorems": [
    "Verif.Uri.C81_counterexample",
    "Verif.Uri.C81_last",
    "Verif.Uri.C81_list_partial",
    "Verif.Uri.C81_order",
    "Verif.Uri.C81_text",
    "Verif.Uri.C81_zero"
   ],
   "note": "Fails for lists of attributes: they are added to those that are there. Proved for the other parts, the order and texts."
  },
  {
   "property": "C82",
   "status": "partial",
   "theorems": [
    "Verif.Uri.C82_counterexample",
    "Verif.Uri.C82_keyword_partial",
    "Verif.Uri.C82_reported",
    "Verif.Uri.C82_rule"
   ],
   "note": "Fails: a pair with the keyword groupattr makes a rule with userdn or groupdn, while Keyword says groupattr; Keyword (uri.go:331) asks whether the pair has a part and makeBindRule (uri.go:270) whether it has a keyword, so that with the empty pair of UAT() Keyword gives the keyword of the name and the rule is a userattr rule. Proved for other pairs and for names; what Keyword gives is proved exactly (C82_reported)."
  },
  {
   "property": "C83",
   "status": "partial",
   "theorems": [
    "Verif.Attr.C83_attribute",
    "Verif.Attr.C83_counterexample",
    "Verif.Attr.C83_counterexample_made",
    "Verif.Attr.C83_counterexample_zero",
    "Verif.Attr.C83_made",
    "Verif.Attr.C83_pair_partial",
    "Verif.Attr.C83_text_last",
    "Verif.Attr.C83_value_partial"
   ],
   "note": "False for texts: a later text replaces the bind type or value (C83_counterexample, C83_counterexample_made), and a zero value forgets what it was given before (C83_counterexample_zero). Proved: the attribute is never replaced and is the first one given (C83_attribute); without texts the first bind type or value is kept (C83_value_partial); otherwise the last text decides (C83_text_last). C83_pair_partial and C83_made say the same of pairs and of the constructors."
  },
  {
   "property": "C84",
   "status": "proved",
   "theorems": [
    "Verif.Bind.C84_address",
    "Verif.Bind.C84_attribute",
    "Verif.Bind.C84_days",
    "Verif.Bind.C84_factor",
    "Verif.Bind.C84_host",
    "Verif.Bind.C84_method",
    "Verif.Bind.C84_names",
    "Verif.Bind.C84_single",
    "Verif.Bind.C84_time",
    "Verif.Bind.C84_type",
    "Verif.Bind.C84_value"
   ],
   "note": "Exact for all keywords, by a relation between texts and values that uses no reader of the model (C84_value, BindValue). The text <invalid_fqdn_or_label> is read as a host name without labels; see C58."
  },
  {
   "property": "C85",
   "status": "proved",
   "theorems": [
    "Verif.Err.C85_errorf",
    "Verif.Err.C85_reported"
   ],
   "note": ""
  },
  {
   "property": "C86",
   "status": "partial",
   "theorems": [
    "Verif.Err.C86_about",
    "Verif.Err.C86_besides",
    "Verif.Err.C86_complete_partial",
    "Verif.Err.C86_counterexample",
    "Verif.Err.C86_counterexample_extra",
    "Verif.Err.C86_sides"
   ],
   "note": "Fails: pushErrorNilOrZero is called without a cause in attr.go, dn.go, filter.go and target.go, and its text wants one (%!v(MISSING)); pushErrorNotUnique and pushErrorBadType take a cause their text does not show; noTBRuleExpressionValues with a nil keyword. Proved for all other calls, and that every message shows what it is about."
  },
  {
   "property": "C87",
   "status": "partial",
   "theorems": [
    "Verif.Compare.C87_addresses",
    "Verif.Compare.C87_clocks",
    "Verif.Compare.C87_counterexample",
    "Verif.Compare.C87_days",
    "Verif.Compare.C87_factors_partial",
    "Verif.Compare.C87_hosts",
    "Verif.Compare.C87_inheritances",
    "Verif.Compare.C87_levels",
    "Verif.Compare.C87_methods",
    "Verif.Compare.C87_names",
    "Verif.Compare.C87_permissions",
    "Verif.Compare.C87_rights_partial",
    "Verif.Compare.C87_scopes"
   ],
   "note": "Fails: reflection takes the number 0 and an empty struct for nothing to compare, so NoAccess and an unset strength factor (which prints 0) differ from themselves. Proved for everything else."
  },
  {
   "property": "C88",
   "status": "partial",
   "theorems": [
    "Verif.Whole.C88_counterexample",
    "Verif.Whole.C88_text_shows_all_partial",
    "Verif.Whole.C88_values_counterexample",
    "Verif.Whole.C88_witnesses_made"
   ],
   "note": "Fails for labels with a quotation mark, which Set takes unchecked: one rule under a crafted label prints as two rules under the label x. Proved where label and values have no quotation mark, values are quoted once, bind rules are as in C75 and rights are within the ten."
  },
  {
   "property": "C89",
   "status": "partial",
   "theorems": [
    "Verif.Uri.C89_counterexample",
    "Verif.Uri.C89_counterexample_parts",
    "Verif.Uri.C89_exact_partial",
    "Verif.Uri.C89_read"
   ],
   "note": "Fails: an unknown scope, a second part that is no attribute, a fifth part and a missing name are passed over. The exact reading of every text is proved (C89_exact_partial), and that every well-formed text is read."
  },
  {
   "property": "C90",
   "status": "partial",
   "theorems": [
    "Verif.PB.C90_counterexample",
    "Verif.PB.C90_cut_partial",
    "Verif.PB.C90_readable_partial",
    "Verif.PB.C90_reads",
    "Verif.PB.C90_refuses"
   ],
   "note": "Fails with C46: from the first unreadable condition of a stack on, the rest of the stack is dropped without error. Proved for every text without these entries, in full for texts all of whose conditions can be read, and that such texts are read unless the reading crashes (C110)."
  },
  {
   "property": "C91",
   "status": "partial",
   "theorems": [
    "Verif.Alias.C91_apart_partial",
    "Verif.Alias.C91_copies",
    "Verif.Alias.C91_counterexample",
    "Verif.Alias.C91_inheritance",
    "Verif.Alias.C91_made",
    "Verif.Alias.C91_only_clock",
    "Verif.Alias.C91_receiver",
    "Verif.Alias.C91_returned",
    "Verif.Alias.C91_unset"
   ],
   "note": "Fails: copies share storage, so d := AllDN; d.Set(\"cn=x\") changes AllDN. Proved exactly which calls store where: TimeOfDay alone keeps copies apart, unset receivers change nothing else, values that were never copied are independent."
  },
  {
   "property": "C92",
   "status": "partial",
   "theorems": [
    "Verif.Alias.C92_counterexample",
    "Verif.Alias.C92_kept_partial",
    "Verif.Alias.C92_list_made",
    "Verif.Alias.C92_list_twice",
    "Verif.Alias.C92_lists_counterexample",
    "Verif.Alias.C92_lists_partial",
    "Verif.Alias.C92_only_clock",
    "Verif.Alias.C92_rule_changes",
    "Verif.Alias.C92_rule_made",
    "Verif.Alias.C92_rules_counterexample",
    "Verif.Alias.C92_rules_partial"
   ],
   "note": "Fails: a rule or list holds the pointer, so a later Set changes its text and can bring in duplicates or other keywords. Proved for what is made, and as long as no method is called on the names or their copies."
  },
  {
   "property": "C93",
   "status": "partial",
   "theorems": [
    "Verif.Globals.C93_bind",
    "Verif.Globals.C93_changes",
    "Verif.Globals.C93_counterexample",
    "Verif.Globals.C93_ordinary",
    "Verif.Globals.C93_start",
    "Verif.Globals.C93_target",
    "Verif.Globals.C93_untouched_partial"
   ],
   "note": "Fails: the aliases are compared with exported variables, so d := SelfDN; d.Set(\"me\") changes which texts are names. Proved exactly for every state, in full for ordinary texts, and for programs that leave the four names alone."
  },
  {
   "property": "C94",
   "status": "partial",
   "theorems": [
    "Verif.Reports.C94_bind_partial",
    "Verif.Reports.C94_counterexample",
    "Verif.Reports.C94_counterexample_bind",
    "Verif.Reports.C94_kind",
    "Verif.Reports.C94_kind_bind",
    "Verif.Reports.C94_kind_unset",
    "Verif.Reports.C94_target_partial",
    "Verif.Reports.C94_unset",
    "Verif.Reports.C94_uri_list"
   ],
   "note": "Fails: AttributeType.Keyword returns nil; a zero pair filled by Set reports userattr and its rule has no known keyword; URIs with a role name, a groupattr pair (C72) or an empty pair (C82). An authentication method has no Keyword. Proved for everything else."
  },
  {
   "property": "C95",
   "status": "proved",
   "theorems": [
    "Verif.Reports.C95_default",
    "Verif.Reports.C95_identifiers",
    "Verif.Reports.C95_names"
   ],
   "note": ""
  },
  {
   "property": "C96",
   "status": "partial",
   "theorems": [
    "Verif.Piece.C96_bind_history",
    "Verif.Piece.C96_bind_marks",
    "Verif.Piece.C96_bind_partial",
    "Verif.Piece.C96_chain_counterexample",
    "Verif.Piece.C96_chain_partial",
    "Verif.Piece.C96_counterexample",
    "Verif.Piece.C96_init_partial",
    "Verif.Piece.C96_target",
    "Verif.Piece.C96_target_history",
    "Verif.Piece.C96_target_marks",
    "Verif.Piece.C96_wipe_counterexample"
   ],
   "note": "Fails for bind rules, whose value has no quotation marks until SetQuoteStyle is called, for Init, which leaves a used rule as it is, and for chains on a declared rule: SetKeyword of a bind rule returns an initialized rule without the keyword, and of a target rule only SetExpression returns an initialized rule, so that the keyword is lost. Proved for target rules in full, for keyword, operator and value of bind rules, what every sequence of calls leaves, what a new value and SetQuoteStyle do to the marks, and what every chain returns."
  },
  {
   "property": "C97",
   "status": "partial",
   "theorems": [
    "Verif.Piece.C97_category_counterexample",
    "Verif.Piece.C97_category_partial",
    "Verif.Piece.C97_contexts",
    "Verif.Piece.C97_id_counterexample",
    "Verif.Piece.C97_id_partial",
    "Verif.Piece.C97_len",
    "Verif.Piece.C97_operator_counterexample",
    "Verif.Piece.C97_operator_partial",
    "Verif.Piece.C97_target_id",
    "Verif.Piece.C97_target_valid"
   ],
   "note": "Fails: ID of a rule started with Init or read is not set; Category of an initialized rule without keyword is a message; castCop reports operators of go-stackage, as the parser makes, as none, and TargetRule.Valid refuses them. Proved for everything else."
  },
  {
   "property": "C98",
   "status": "partial",
   "theorems": [
    "Verif.Back.C98_ascii_counterexample",
    "Verif.Back.C98_bind_partial",
    "Verif.Back.C98_calm",
    "Verif.Back.C98_counterexample",
    "Verif.Back.C98_target_calm",
    "Verif.Back.C98_target_counterexample",
    "Verif.Back.C98_target_partial"
   ],
   "note": "Fails: text above ASCII gets longer with every reading, one pair of quotation marks after the other is taken away, and of two schemes one. Proved for all sound values (C98_bind_partial, C98_target_partial), and for every value read from ASCII text without quotation marks, question marks and doubled schemes (C98_calm, C98_target_calm)."
  },
  {
   "property": "C99",
   "status": "partial",
   "theorems": [
    "Verif.Back.C99_back_partial",
    "Verif.Back.C99_counterexample",
    "Verif.Back.C99_lost_counterexample",
    "Verif.Back.C99_reads_partial",
    "Verif.Back.C99_split"
   ],
   "note": "Fails: the quotation marks of a single name in the quotation style 0 are lost, and so are parentheses around the whole and white space within values. Proved: trees whose conditions are read as values with their texts print as they stand in the text (C99_reads_partial); texts of contexts with sound values, whose parts belong together as in C75, are read as the same rules, with the same text and meaning (C99_back_partial), and can be split (C99_split)."
  },
  {
   "property": "C100",
   "status": "partial",
   "theorems": [
    "Verif.Back.C100_back_partial",
    "Verif.Back.C100_counterexample",
    "Verif.Back.C100_split",
    "Verif.Back.C100_text_partial"
   ],
   "note": "Fails: of several different attributes in a target rule only the first is read (C44), so that the text read again is another one. Proved (C100_back_partial, C100_text_partial): an instruction that shows all of it, that is, whose label and values have no quotation marks or double bars, whose values are sound (C98) and stand between quotation marks, whose target rules have different keywords and whose permission bind rules have different texts, is read from its text as itself, however the text is split; and each such text can be split (C100_split). Missing: all other instructions; and that the parser, which is not modelled, returns such parts."
  },
  {
   "property": "C101",
   "status": "partial",
   "theorems": [
    "Verif.Find.C101_attributes",
    "Verif.Find.C101_bind_names_partial",
    "Verif.Find.C101_counterexample",
    "Verif.Find.C101_filters",
    "Verif.Find.C101_identifiers_partial",
    "Verif.Find.C101_instructions_partial",
    "Verif.Find.C101_operations",
    "Verif.Find.C101_permission_rules_partial",
    "Verif.Find.C101_strangers_partial",
    "Verif.Find.C101_target_names",
    "Verif.Find.C101_target_rules",
    "Verif.Find.C101_texts"
   ],
   "note": "BindDistinguishedNames.Pop asserts the type BindDistinguishedName only, so that an address (LDAPURI) is removed but not returned. A keyword pushed into a list of object identifiers becomes an entry which Index shows as the zero identifier and which Contains does not find. Instructions.Contains condenses the white space of what is looked for but not of the entries, so that an instruction whose label has doubled white space is not found and can be pushed twice. PermissionBindRules.Contains reads a text first and finds a rule by its text only if the text is read as a rule with this text. A value that is neither an entry nor a text leaves the candidate of Contains empty, so that a list of names that holds an unset address contains every such value."
  },
  {
   "property": "C102",
   "status": "partial",
   "theorems": [
    "Verif.Length.C102_addresses",
    "Verif.Length.C102_bind_tables",
    "Verif.Length.C102_counterexample_days",
    "Verif.Length.C102_counterexample_levels",
    "Verif.Length.C102_days_partial",
    "Verif.Length.C102_host_names",
    "Verif.Length.C102_levels_partial",
    "Verif.Length.C102_no_table",
    "Verif.Length.C102_single",
    "Verif.Length.C102_target_tables_partial"
   ],
   "note": "Fails: Day(1) and Level(1), which name no day and no level, are accepted and counted, and an inheritance without levels, whose length is 0, prints level 0. The table of methods of a filter operation has length 2, although only Eq goes with targattrfilters (C71). Proved: days and levels after any history of calls with proper values (C102_days_partial, C102_levels_partial), addresses and host names (C102_addresses, C102_host_names), all other tables (C102_bind_tables, C102_target_tables_partial) and single values (C102_single)."
  },
  {
   "property": "C103",
   "status": "partial",
   "theorems": [
    "Verif.Parts.C103_attribute_partial",
    "Verif.Parts.C103_counterexample",
    "Verif.Parts.C103_filter_partial",
    "Verif.Parts.C103_text",
    "Verif.Parts.C103_value"
   ],
   "note": "Fails: the text *, which AT accepts as an attribute type, is taken for the filter, and an empty text, which SearchFilter.Set passes over, takes the filter away (C103_counterexample). Proved: of all arguments of AF and of any Set calls, the last that gives an attribute type and the last that gives a filter, where texts are sorted by whether they are attribute names (C103_attribute_partial, C103_filter_partial), and the text (C103_text)."
  },
  {
   "property": "C104",
   "status": "partial",
   "theorems": [
    "Verif.Cast.C104_counterexample",
    "Verif.Cast.C104_known_partial",
    "Verif.Cast.C104_rules",
    "Verif.Cast.C104_stacks"
   ],
   "note": "Fails: isStack is true of the single types ObjectIdentifier, BindDistinguishedName and TargetDistinguishedName, which are no stacks; castAsCondition of anything that is no rule returns a started condition with an error although an empty one is documented; isStackageCondition accepts a pointer to a condition, which derefC takes for the zero condition (C104_counterexample). Proved: the conversions (C104_stacks, C104_rules) and the questions about all other values (C104_known_partial)."
  },
  {
   "property": "C105",
   "status": "partial",
   "theorems": [
    "Verif.Cast.C105_bits",
    "Verif.Cast.C105_counterexample",
    "Verif.Cast.C105_package",
    "Verif.Cast.C105_powers_partial",
    "Verif.Cast.C105_types_partial"
   ],
   "note": "Fails: isPowerOfTwo is true of 0 (and of the least integer), and isIUint and isPtr panic for nil (C105_counterexample). Proved: isPowerOfTwo is true exactly of the numbers with one bit at most (C105_bits), so that it is right for positive ones (C105_powers_partial); isIUint and bitSize of all other values (C105_types_partial); the types of the package (C105_package)."
  },
  {
   "property": "C106",
   "status": "partial",
   "theorems": [
    "Verif.Layout.C106_counterexample",
    "Verif.Layout.C106_default",
    "Verif.Layout.C106_layout_partial",
    "Verif.Layout.C106_paren",
    "Verif.Layout.C106_settings",
    "Verif.Layout.C106_stack",
    "Verif.Layout.C106_targets_partial",
    "Verif.Layout.C106_targets_settings",
    "Verif.Layout.C106_tight",
    "Verif.Layout.C106_twice",
    "Verif.Layout.C106_words"
   ],
   "note": "Fails: with a quotation mark in a value, the blank before the closing parenthesis is within quotation marks (C106_counterexample). Proved: for values without quotation marks (C106_layout_partial, C106_targets_partial), what the settings leave alone (C106_settings, C106_targets_settings), the default (C106_default), the shortest text (C106_tight), and that words are read in any letter case (C106_words)."
  },
  {
   "property": "C107",
   "status": "partial",
   "theorems": [
    "Verif.Reset.C107_attributes_partial",
    "Verif.Reset.C107_bind",
    "Verif.Reset.C107_counterexample",
    "Verif.Reset.C107_oid",
    "Verif.Reset.C107_target"
   ],
   "note": "Fails: a list of attribute types takes userattr and groupattr, which are no keywords of targets, and reports no keyword afterwards (C107_counterexample). Proved: lists of bind DNs (C107_bind), target DNs (C107_target) and object identifiers (C107_oid); attribute types apart from these two words (C107_attributes_partial)."
  },
  {
   "property": "C108",
   "status": "partial",
   "theorems": [
    "Verif.Edit.C108_counterexample",
    "Verif.Edit.C108_insert_counterexample",
    "Verif.Edit.C108_places",
    "Verif.Edit.C108_readonly",
    "Verif.Edit.C108_shows_partial",
    "Verif.Edit.C108_switch",
    "Verif.Edit.C108_targets",
    "Verif.Edit.C108_targets_readonly"
   ],
   "note": "Fails: BindRules.Replace (bind.go:919-933) and insert (bind.go:984-991) do not ask the push policy, so that anything can take the place of an entry (Index then shows nil) and an uninitialized stack or rule can be inserted (C108_counterexample, C108_insert_counterexample). Holds when these two are given fit contexts; the statements on places, on read-only stacks and on target rules hold outright."
  },
  {
   "property": "C109",
   "status": "partial",
   "theorems": [
    "Verif.Valid.C109_counterexample",
    "Verif.Valid.C109_days_partial",
    "Verif.Valid.C109_hosts",
    "Verif.Valid.C109_identifiers",
    "Verif.Valid.C109_pairs_partial",
    "Verif.Valid.C109_uris",
    "Verif.Valid.C109_values"
   ],
   "note": "Fails: UAT() without parts is valid and prints nothing, so does an inheritance of it, and days that have the lowest bit, which is no day, are valid although their text begins with a marker (C109_counterexample). Holds for all other types, for pairs with both parts and for days without that bit."
  },
  {
   "property": "C110",
   "status": "partial",
   "theorems": [
    "Verif.Crash.C110_bind_partial",
    "Verif.Crash.C110_condition_partial",
    "Verif.Crash.C110_counterexample",
    "Verif.Crash.C110_instruction_partial",
    "Verif.Crash.C110_permission_bind_partial"
   ],
   "note": "Fails: a condition `userattr = \"parent[0]\"` (levels with nothing behind the bracket) makes `parseInheritance` index an empty text (/repo/levels.go:182), so `ParseBindRules`, `ParsePermissionBindRule` and `Instruction.Parse` panic. So does `userattr = \"cn#\"`: the rules are printed when they have been read (/repo/bind.go:625), and printing a pair without a value dereferences a nil pointer (/repo/attr.go:225). Proved: a condition crashes exactly if it is an attribute condition with levels and nothing behind them; reading anything crashes only through such a condition or one whose value is a name and the mark; it does crash if the conditions before the levels, or all conditions, can be read."
  },
  {
   "property": "C111",
   "status": "partial",
   "theorems": [
    "Verif.Scheme.C111_again_partial",
    "Verif.Scheme.C111_assigned_partial",
    "Verif.Scheme.C111_constant_partial",
    "Verif.Scheme.C111_counterexample",
    "Verif.Scheme.C111_restored_counterexample",
    "Verif.Scheme.C111_same_partial"
   ],
   "note": "Fails: `LocalScheme` (/repo/dn.go:23) is called a constant, for reference only, but is an exported variable. A program that assigns it makes every name and address, also those made before, print another scheme, such as that of another host; a name made in the meantime keeps `ldap:///` within its text after the value is restored. Proved: programs that do not assign it are local; after an assignment everything shows the new scheme before a text that does not depend on it; under any scheme that is not empty names survive printing."
  },
  {
   "property": "C112",
   "status": "partial",
   "theorems": [
    "Verif.Share.C112_alone_partial",
    "Verif.Share.C112_apart_partial",
    "Verif.Share.C112_counterexample",
    "Verif.Share.C112_own_iff",
    "Verif.Share.C112_says"
   ],
   "note": "Fails for all four types: a rule holds the list itself, and `SetQuoteStyle(0)` stores the quotation of the single values in the list, so that another rule made from the list, which keeps its marks around the whole, prints `\"\"a\" || \"b\"\"`. `Push` and `Pop` change the rules made before. Proved: the exact text after any such history (the last style of the rule itself decides about the outer marks, the last style of any rule about the inner ones), when the style of another rule changes nothing, that a list used through one rule has exactly one of the two quotations, and that rules which share no list never touch each other."
  },
  {
   "property": "C113",
   "status": "partial",
   "theorems": [
    "Verif.Nest.C113_counterexample",
    "Verif.Nest.C113_iff",
    "Verif.Nest.C113_index",
    "Verif.Nest.C113_itself",
    "Verif.Nest.C113_make",
    "Verif.Nest.C113_paren",
    "Verif.Nest.C113_partial",
    "Verif.Nest.C113_pop",
    "Verif.Nest.C113_push",
    "Verif.Nest.C113_push_iff",
    "Verif.Nest.C113_replace",
    "Verif.Nest.C113_tree"
   ],
   "note": "Fails: the push policy takes the receiver itself. After `r := And(); r.Push(r)` the method `String` of `r`, and of everything that holds `r`, never ends (`C113_itself`); in Go the stack overflows and the program is killed. `C113_iff` says exactly when printing ends, `C113_push_iff` exactly which push begins a circle. `C113_partial` covers programs without such pushes; `C113_push`, `C113_make`, `C113_pop`, `C113_index`, `C113_replace` and `C113_paren` tie memory to the trees of the other model files."
  },
  {
   "property": "C114",
   "status": "partial",
   "theorems": [
    "Verif.Nest.C114_counterexample",
    "Verif.Nest.C114_frame_partial",
    "Verif.Nest.C114_shows"
   ],
   "note": "Fails: a stack that was pushed into another one is held by pointer. After `a := And(r); b := Or(a, r); a.Push(s)` the text of `b` has changed, and `AND` now stands next to `OR` without parentheses. `C114_shows` says that a stack shows its entries as they are when it is printed; `C114_frame_partial` that only calls on stacks a variable contains can change its text."
  },
  {
   "property": "C115",
   "status": "partial",
   "theorems": [
    "Verif.Held.C115_always",
    "Verif.Held.C115_counterexample",
    "Verif.Held.C115_frame",
    "Verif.Held.C115_keyword_iff",
    "Verif.Held.C115_others",
    "Verif.Held.C115_partial",
    "Verif.Held.C115_push_iff",
    "Verif.Held.C115_returns",
    "Verif.Held.C115_unknown"
   ],
   "note": "Fails: SetKeyword on a rule that is in a list can give it the keyword of another rule of the list, or none (t1, t2 pushed, then t2.SetKeyword(Target)). C115_keyword_iff says exactly when it does; C115_partial shows the claim for programs without such calls; length, single occurrence and initialization hold for all programs (C115_always)."
  },
  {
   "property": "C116",
   "status": "partial",
   "theorems": [
    "Verif.Heap.C116_apart",
    "Verif.Heap.C116_counterexample",
    "Verif.Heap.C116_new",
    "Verif.Heap.C116_other",
    "Verif.Heap.C116_partial",
    "Verif.Heap.C116_set"
   ],
   "note": "Fails: an instruction keeps pointers to the rules it was given, so that Shift on the permission of a rule changes every instruction with this permission. C116_partial gives the storage an instruction is made of and shows that its text changes only when some of this is written; that lists are never shared (C116_apart), that calls on one instruction leave the others alone (C116_other), and that Set and ACI in memory do what the tree model says (C116_set, C116_new) holds for all programs."
  },
  {
   "property": "C117",
   "status": "partial",
   "theorems": [
    "Verif.Heap.C117_complete",
    "Verif.Heap.C117_counterexample",
    "Verif.Heap.C117_once",
    "Verif.Heap.C117_partial",
    "Verif.Heap.C117_push",
    "Verif.Heap.C117_set"
   ],
   "note": "Fails for the texts: a list of rules with allow(read) and allow(read,write) has two rules of the same text after Unshift of the second permission. Completeness (C117_complete), single occurrence of storage (C117_once) and the condition of Push (C117_push) hold for all programs; C117_partial shows that texts differ in programs that change nothing a held rule is made of."
  },
  {
   "property": "C118",
   "status": "partial",
   "theorems": [
    "Verif.Heap.C118_counterexample",
    "Verif.Heap.C118_entries",
    "Verif.Heap.C118_frame",
    "Verif.Heap.C118_partial",
    "Verif.Heap.C118_push"
   ],
   "note": "False in both parts. Set on an instruction that is in a list (or any call on something it is made of) can give two entries the same text, and since pushPolicy compares the texts of the entries with the condensed text of the candidate, an instruction whose text holds two spaces in a row (or a byte above 127) is taken again and again (C118_counterexample). C118_partial is the claim for programs that change nothing an entry is made of, and condensed texts; C118_push says exactly when a push is taken, C118_entries and C118_frame hold of every program."
  },
  {
   "property": "C119",
   "status": "partial",
   "theorems": [
    "Verif.Unset.C119_counterexample",
    "Verif.Unset.C119_days_partial",
    "Verif.Unset.C119_filters_partial",
    "Verif.Unset.C119_hosts_partial",
    "Verif.Unset.C119_pairs_partial",
    "Verif.Unset.C119_permission_bind_rules_partial",
    "Verif.Unset.C119_values"
   ],
   "note": "Fails.  A declared pair is still reported unset after Set gave it an attribute and a value, because Set does not give it a keyword and IsZero looks at the keyword only (its text shows the parts).  An attribute filter with one of its parts, a host name of one label or of more than fifteen, days without a day and a permission bind rule with one of its parts are reported set and print what an unset one prints.  Proved: the claim for the other types and for pairs made at once; for the types where it fails, exactly when IsZero is true and exactly when the text is that of an unset value."
  },
  {
   "property": "C120",
   "status": "partial",
   "theorems": [
    "Verif.Within.C120_bind_names_partial",
    "Verif.Within.C120_counterexample",
    "Verif.Within.C120_identifiers_partial",
    "Verif.Within.C120_parts",
    "Verif.Within.C120_target_rules_partial",
    "Verif.Within.C120_valid"
   ],
   "note": "BindDistinguishedNames takes an LDAPURI as it is, also an unset one. ObjectIdentifiers takes keywords as entries. TargetRules asks only whether the rule is zero and for its keyword, so that a rule without operator or with one the keyword does not allow enters the list (for bind rules see C48). Attribute types, target names, attribute filters, permission bind rules and instructions: the claim holds."
  },
  {
   "property": "C121",
   "status": "partial",
   "theorems": [
    "Verif.AsText.C121_addresses_partial",
    "Verif.AsText.C121_counterexample",
    "Verif.AsText.C121_operations_partial",
    "Verif.AsText.C121_target_rules",
    "Verif.AsText.C121_texts"
   ],
   "note": "Documented as \"or its string equivalent\". Holds for attribute types, target names, bind names and attribute filters. The text of an address becomes a name, so that scope, attributes and filter are lost as parts (the printed list is the same). The text of an operation goes through the clean-up of white space (C41). TargetRules takes no text at all, although its documentation says so."
  },
  {
   "property": "C122",
   "status": "partial",
   "theorems": [
    "Verif.Prints.C122_counterexample",
    "Verif.Prints.C122_identifiers_partial",
    "Verif.Prints.C122_inheritances_partial",
    "Verif.Prints.C122_pairs",
    "Verif.Prints.C122_pairs_partial",
    "Verif.Prints.C122_read_partial"
   ],
   "note": "Printing a pair whose value is empty (AV of the empty text, or the text cn#) dereferences a nil pointer (attr.go:225); fmt writes a report of this crash into the text of an inheritance or an address. OID crashes on a keyword that is nil or of bind rules. Proved: exactly these cases crash."
  },
  {
   "property": "C123",
   "status": "partial",
   "theorems": [
    "Verif.BindPrints.C123_context",
    "Verif.BindPrints.C123_counterexample",
    "Verif.BindPrints.C123_instruction",
    "Verif.BindPrints.C123_made_partial",
    "Verif.BindPrints.C123_permission_bind",
    "Verif.BindPrints.C123_read",
    "Verif.BindPrints.C123_rule"
   ],
   "note": "Fails for rules that are made: a rule with a pair that has an attribute and an empty value crashes when it is printed. Proved: exactly the rules and nests with such a complete rule crash; whatever is read (bind rules, permission bind rules, instructions) can be printed."
  },
  {
   "property": "C124",
   "status": "partial",
   "theorems": [
    "Verif.InTurn.C124_addresses_partial",
    "Verif.InTurn.C124_bind_names_partial",
    "Verif.InTurn.C124_bind_rules_partial",
    "Verif.InTurn.C124_counterexample",
    "Verif.InTurn.C124_filters",
    "Verif.InTurn.C124_hosts_partial",
    "Verif.InTurn.C124_levels_partial",
    "Verif.InTurn.C124_pairs_partial",
    "Verif.InTurn.C124_permission_parts_partial",
    "Verif.InTurn.C124_permission_rules_partial",
    "Verif.InTurn.C124_target_names_partial",
    "Verif.InTurn.C124_target_rules_partial",
    "Verif.InTurn.C124_values"
   ],
   "note": "Holds for lists of attribute types, object identifiers, filters, operations and instructions, for permissions, days, addresses of hosts and the parts of instructions; attribute filters have the same text either way. Fails (C124_counterexample): in lists of names an empty text, or a name with another keyword, ends the call and hides the arguments behind it; so does a text that cannot be read in lists of permission bind rules, a refused argument of Set of a permission bind rule, and any refused argument in lists of target rules and bind rules if go-stackage ends the call there. Pairs without keyword and inheritances without pair forget what the call before gave them. A host name takes all labels of a call or none. Set of an address forgets the arguments after a text that is an address. The partial theorems say exactly what happens in these cases."
  },
  {
   "property": "C125",
   "status": "partial",
   "theorems": [
    "Verif.Decide.C125_back_partial",
    "Verif.Decide.C125_counterexample",
    "Verif.Decide.C125_cut_partial",
    "Verif.Decide.C125_legible_partial",
    "Verif.InForce.C125_case_counterexample",
    "Verif.InForce.C125_shown_partial"
   ],
   "note": "Fails. A condition that cannot be read is dropped without an error, with all entries of its stack behind it, so that `allow(read) ssf >= \"71\" AND dayofweek = \"xyz\"` permits reading whenever the first condition holds; the permission bind rules behind an unreadable one are dropped, so that a denial can be lost (C125_counterexample). Also of `deny(read) userattr = \"nick#bob\"; deny(read) userattr = \"nick#Bob\";`, all of which can be read, the second denial is dropped (C125_case_counterexample). Proved: what the instruction allows or denies the text does once what reading cuts off is cut off (C125_cut_partial); for legible texts nothing more is allowed or denied, and exactly the same if no rule was dropped as a duplicate (C125_legible_partial), or if the rules are read as rules whose text shows what they mean and no two of them are printed with texts that differ in case alone (C125_shown_partial); the text that a whole instruction prints, when read again, permits what the instruction does (C125_back_partial)."
  },
  {
   "property": "C126",
   "status": "partial",
   "theorems": [
    "Verif.InForce.C126_case_counterexample",
    "Verif.InForce.C126_counterexample",
    "Verif.InForce.C126_instruction_partial",
    "Verif.InForce.C126_no_more_partial",
    "Verif.InForce.C126_shown_partial"
   ],
   "note": "Fails. `And(a, Or(b, c))` and `Or(And(a, b), c)` print as the same text, so that of two denials with them the second is left out, and where `c` holds alone the list permits what it forbids (C126_counterexample); and rules whose texts differ only in case are taken for the same, whether or not case matters for the value (C126_case_counterexample). Proved: nothing more is ever allowed or denied (C126_no_more_partial), and exactly the same for rules whose text shows how their parts belong together and no two of which differ in case alone (C126_shown_partial, and C126_instruction_partial for instructions)."
  },
  {
   "property": "C127",
   "status": "proved",
   "theorems": [
    "Verif.Given.C127_bind_rules",
    "Verif.Given.C127_gives",
    "Verif.Given.C127_instruction",
    "Verif.Given.C127_instructions",
    "Verif.Given.C127_rules",
    "Verif.Given.C127_targets"
   ],
   "note": ""
  },
  {
   "property": "C128",
   "status": "partial",
   "theorems": [
    "Verif.Applies.C128_back_partial",
    "Verif.Applies.C128_counterexample",
    "Verif.Applies.C128_distinct_partial",
    "Verif.Applies.C128_no_less_partial"
   ],
   "note": "Fails. Of two target rules with one keyword the second is dropped without an error, so that `( targetattr = \"cn\" )( targetattr = \"sn\" )` applies also where the second does not hold (C128_counterexample). Proved: the instruction applies wherever its text does (C128_no_less_partial); exactly there if no keyword occurs twice, whether or not the rules can be read (C128_distinct_partial); the text that a whole instruction prints, when read again, applies where the instruction does (C128_back_partial)."
  },
  {
   "property": "C129",
   "status": "partial",
   "theorems": [
    "Verif.Placeholders.C129_bind_partial",
    "Verif.Placeholders.C129_counterexample",
    "Verif.Placeholders.C129_inside",
    "Verif.Placeholders.C129_target_partial",
    "Verif.Placeholders.C129_texts"
   ],
   "note": "The texts are proved (C129_texts). The claim about reading fails (C129_counterexample): dns = \"<invalid_fqdn_or_label>\" is taken, as a name of no labels, because the reader compares the text with what the name it made prints as, and a name that could not be made prints as just this text. The keywords userdn, groupdn, roledn, target, target_to and target_from take every one of the texts as a distinguished name, and targetfilter takes them as a filter. C129_bind_partial and C129_target_partial say exactly which of the texts each keyword takes, and what it makes of them; all other keywords refuse all of them."
  },
  {
   "property": "C130",
   "status": "proved",
   "theorems": [
    "Verif.OneWay.C130_bind_rules",
    "Verif.OneWay.C130_instruction",
    "Verif.OneWay.C130_instructions",
    "Verif.OneWay.C130_permission",
    "Verif.OneWay.C130_rules",
    "Verif.OneWay.C130_rules_pop",
    "Verif.OneWay.C130_targets"
   ],
   "note": "Proved in full. A rule that is refused (a duplicate, or an incomplete one) changes nothing, so that the directions hold for it as well; that a pushed denial is in force is another claim, which fails (C126)."
  },
  {
   "property": "C131",
   "status": "partial",
   "theorems": [
    "Verif.Order.C131_bind_partial",
    "Verif.Order.C131_counterexample",
    "Verif.Order.C131_days",
    "Verif.Order.C131_levels",
    "Verif.Order.C131_rights",
    "Verif.Order.C131_rules_partial",
    "Verif.Order.C131_targets_partial"
   ],
   "note": "Proved in full for rights, days and levels. For lists of rules the claim fails because of the checks that keep duplicates out: of two permission bind rules with one text but different meanings (C126) and of two target rules with one keyword (C43) the first one pushed is kept; and a stack that ends a call at a refused argument loses the bind rules behind it. The partial theorems prove it for rules whose text shows their meaning, for target rules with different keywords, and for stacks that go on or have no argument to refuse; the counterexamples show that none of these conditions can simply be left out."
  },
  {
   "property": "C132",
   "status": "partial",
   "theorems": [
    "Verif.ListText.C132_back_partial",
    "Verif.ListText.C132_counterexample",
    "Verif.ListText.C132_lines_partial",
    "Verif.ListText.C132_tells_partial"
   ],
   "note": "Fails for labels with a line feed: one instruction with the label `x\"; )<LF>(version 3.0; acl \"y` prints as two instructions with the labels x and y do (counterexample). Proved for texts without a line feed (C132_lines_partial, C132_tells_partial), and, for reading back, for instructions that are read from their own texts (C100), with condensed texts, no two of which are equal in any case of letters (C52)."
  },
  {
   "property": "C133",
   "status": "partial",
   "theorems": [
    "Verif.Again.C133_attributes_partial",
    "Verif.Again.C133_bind",
    "Verif.Again.C133_bind_names",
    "Verif.Again.C133_counterexample",
    "Verif.Again.C133_days",
    "Verif.Again.C133_filters_partial",
    "Verif.Again.C133_instructions_partial",
    "Verif.Again.C133_ips",
    "Verif.Again.C133_levels_partial",
    "Verif.Again.C133_oids_partial",
    "Verif.Again.C133_operations",
    "Verif.Again.C133_rights",
    "Verif.Again.C133_rules",
    "Verif.Again.C133_target_names",
    "Verif.Again.C133_targets"
   ],
   "note": "Proved in full for rights (numbers that fit), days, IP addresses, distinguished names, filter operations, target rules, permission bind rules and bind rules. Fails for attribute types, which are added each time (C31); for levels of an inheritance without an attribute pair, as Shift then returns a value with the last level alone; for instructions whose text is not condensed (C52); for keywords pushed to lists of object identifiers (C37); and for the operation of a filter operation, of which the last one given counts. The partial theorems prove the rest of these cases."
  },
  {
   "property": "C134",
   "status": "partial",
   "theorems": [
    "Verif.Letters.C134_counterexample",
    "Verif.Letters.C134_counterexample_parent",
    "Verif.Letters.C134_days",
    "Verif.Letters.C134_inheritance",
    "Verif.Letters.C134_permission",
    "Verif.Letters.C134_rights",
    "Verif.Letters.C134_scopes",
    "Verif.Letters.C134_security",
    "Verif.Letters.C134_tables",
    "Verif.Letters.C134_values",
    "Verif.Letters.C134_words"
   ],
   "note": "Proved for everything but two words. Fails for parent in values of userattr and groupattr rules, because assertBindUGAttr looks for `parent[` as it is written, although the function it calls then takes any letter case (C134_counterexample_parent, C134_inheritance); and for add and delete in filter operations (C134_counterexample)."
  },
  {
   "property": "C135",
   "status": "proved",
   "theorems": [
    "Verif.Moments.C135_clock",
    "Verif.Moments.C135_days",
    "Verif.Moments.C135_factor",
    "Verif.Moments.C135_frames",
    "Verif.Moments.C135_strength",
    "Verif.Moments.C135_stronger",
    "Verif.Moments.C135_week",
    "Verif.Moments.C135_whole_day"
   ],
   "note": ""
  },
  {
   "property": "C136",
   "status": "partial",
   "theorems": [
    "Verif.Around.C136_bind_partial",
    "Verif.Around.C136_counterexample",
    "Verif.Around.C136_counterexample_uri",
    "Verif.Around.C136_target_partial"
   ],
   "note": "Proved for all values but two kinds. Fails for names that are URIs, that is begin with `ldap:///` and contain a question mark, because they are looked at before white space is removed (C136_counterexample_uri); and for object identifiers, which go to the reader of another package as they are: alike if and as far as that reader ignores white space (C136_counterexample)."
  },
  {
   "property": "C137",
   "status": "proved",
   "theorems": [
    "Verif.Walk.C137_levels",
    "Verif.Walk.C137_methods",
    "Verif.Walk.C137_reading",
    "Verif.Walk.C137_rights",
    "Verif.Walk.C137_tables",
    "Verif.Walk.C137_texts",
    "Verif.Walk.C137_words"
   ],
   "note": ""
  },
  {
   "property": "C138",
   "status": "partial",
   "theorems": [
    "Verif.Quotes.C138_checked",
    "Verif.Quotes.C138_counterexample",
    "Verif.Quotes.C138_kinds",
    "Verif.Quotes.C138_names_partial",
    "Verif.Quotes.C138_pairs_partial",
    "Verif.Quotes.C138_rules_partial",
    "Verif.Quotes.C138_target_counterexample",
    "Verif.Quotes.C138_target_kinds",
    "Verif.Quotes.C138_target_rules_partial",
    "Verif.Quotes.C138_words"
   ],
   "note": "Fails for names, attribute values and URIs, which take any text: a name can be such that the text of its rule is that of two rules, the second of which holds for anyone (C138_counterexample). Proved for addresses, host names, days, times, methods, strength factors, attribute pairs with a bind type and inheritances of these; for rules of all values exactly where the texts of the value have no mark (C138_rules_partial); names, filters and attribute values have one exactly if one was given. For target rules likewise: proved for scopes and attributes, exact for the others (C138_target_kinds, C138_target_rules_partial), false for names (C138_target_counterexample)."
  },
  {
   "property": "C139",
   "status": "partial",
   "theorems": [
    "Verif.Alone.C139_attribute",
    "Verif.Alone.C139_bind_partial",
    "Verif.Alone.C139_clean_partial",
    "Verif.Alone.C139_counterexample",
    "Verif.Alone.C139_filters_partial",
    "Verif.Alone.C139_group_counterexample",
    "Verif.Alone.C139_operations_partial",
    "Verif.Alone.C139_parts",
    "Verif.Alone.C139_rules_partial",
    "Verif.Alone.C139_targets_partial"
   ],
   "note": "Fails for permission bind rules (an instruction with a refused one is read without error), target rules (of two with one keyword one is kept), bind rules (alone they keep the text of the value), operations (a list takes quotation marks away twice) and filters (pairs under five bytes are refused alone): C139_counterexample; and for the pair of any condition about groupattr, which no text is read as alone (C139_group_counterexample). Proved for the parts of permission bind rules, addresses and pairs; for rules that are all taken alone; for target rules with different keywords; for keyword, operator and parentheses of bind rules; for operations once the marks are taken away; for filters written tidily."
  },
  {
   "property": "C140",
   "status": "partial",
   "theorems": [
    "Verif.Same.C140_conditions",
    "Verif.Same.C140_counterexample",
    "Verif.Same.C140_filled",
    "Verif.Same.C140_identifiers_counterexample",
    "Verif.Same.C140_identifiers_partial",
    "Verif.Same.C140_instruction",
    "Verif.Same.C140_instructions",
    "Verif.Same.C140_keyword",
    "Verif.Same.C140_names_partial",
    "Verif.Same.C140_operation",
    "Verif.Same.C140_operations",
    "Verif.Same.C140_permission_bind_rule",
    "Verif.Same.C140_rules",
    "Verif.Same.C140_stacks",
    "Verif.Same.C140_styles_counterexample",
    "Verif.Same.C140_targets"
   ],
   "note": "Fails for names: a list of names for users takes UDN and refuses GDN, although their texts are the same (C140_counterexample); C140_names_partial has names with the same keyword. Likewise for object identifiers (C140_identifiers_counterexample), and for conditions once the quotation style is changed (C140_styles_counterexample). Target rules: zero or complete, and with a keyword without blanks, which SetKeyword ensures (C140_keyword). Operations: with filters that say something, which pushing ensures (C140_filled)."
  },
  {
   "property": "C141",
   "status": "partial",
   "theorems": [
    "Verif.Growth.C141_address",
    "Verif.Growth.C141_condensed",
    "Verif.Growth.C141_counterexample",
    "Verif.Growth.C141_filter_partial",
    "Verif.Growth.C141_inheritance",
    "Verif.Growth.C141_name",
    "Verif.Growth.C141_operation_partial",
    "Verif.Growth.C141_operations_partial",
    "Verif.Growth.C141_pair"
   ],
   "note": "Fails: bytes above ASCII are encoded again and take two bytes each (C141_counterexample), and operations are printed with spaces around &&. Proved: white space condensing, filters at most double, not at all for ASCII text; operations at most four times, twice for ASCII; lists of operations at most eight times, twice for ASCII; pairs never; names at most 8 bytes, addresses at most 130 and inheritance at most 111 bytes more."
  },
  {
   "property": "C142",
   "status": "partial",
   "theorems": [
    "Verif.Settle.C142_ascii_partial",
    "Verif.Settle.C142_counterexample",
    "Verif.Settle.C142_doubles"
   ],
   "note": "Fails for text above ASCII: the letter é doubles in every round, so that after n rounds the filter has 2^(n+1) bytes in its place (C142_doubles, C142_counterexample). Proved for ASCII text, with a bound on the number of rounds: one for every byte and one more (C142_ascii_partial); one round is not enough, since every round takes one pair of quotation marks."
  },
  {
   "property": "C143",
   "status": "partial",
   "theorems": [
    "Verif.Stay.C143_addresses_partial",
    "Verif.Stay.C143_counterexample",
    "Verif.Stay.C143_days",
    "Verif.Stay.C143_filters_partial",
    "Verif.Stay.C143_hosts_partial",
    "Verif.Stay.C143_inheritances",
    "Verif.Stay.C143_instructions",
    "Verif.Stay.C143_ips",
    "Verif.Stay.C143_names",
    "Verif.Stay.C143_pairs",
    "Verif.Stay.C143_permission_bind_rules",
    "Verif.Stay.C143_permissions",
    "Verif.Stay.C143_unshift_days"
   ],
   "note": "Fails for attribute filters, host names and LDAP URIs (C143_counterexample): an unset part replaces a set one, a sixteenth label is taken, and a URI without a name replaces one with a name. Proved for them when the arguments are valid, or while the host name has at most fifteen labels (C143_filters_partial, C143_hosts_partial, C143_addresses_partial); for the other kinds in full."
  },
  {
   "property": "C144",
   "status": "partial",
   "theorems": [
    "Verif.Addr.C144_counterexample",
    "Verif.Addr.C144_list_partial",
    "Verif.Addr.C144_mixed",
    "Verif.Addr.C144_only_partial",
    "Verif.Addr.C144_taken_partial"
   ],
   "note": "Fails in both directions (C144_counterexample): the notation that ends an IPv6 address with an IPv4 address is refused, always (C144_mixed), and two slashes are taken. Proved: every other address, network and pattern is taken, alone and in lists (C144_taken_partial, C144_list_partial); what is taken has the characters of addresses (C144_only_partial)."
  },
  {
   "property": "C145",
   "status": "partial",
   "theorems": [
    "Verif.InsForce.C145_clean_partial",
    "Verif.InsForce.C145_counterexample",
    "Verif.InsForce.C145_no_more_partial",
    "Verif.InsForce.C145_permits_partial"
   ],
   "note": "Fails (C145_counterexample): of two instructions with one label that deny under And(a, Or(b, c)) and under Or(And(a, b), c), which print alike, the second is left out. Proved: nothing more is allowed or denied (C145_no_more_partial), and exactly the same for instructions whose text shows what they mean and no two of which differ in case or white space alone (C145_clean_partial, C145_permits_partial)."
  },
  {
   "property": "C146",
   "status": "partial",
   "theorems": [
    "Verif.RulesForce.C146_at_once_partial",
    "Verif.RulesForce.C146_bind_rules_partial",
    "Verif.RulesForce.C146_bounds_partial",
    "Verif.RulesForce.C146_counterexample",
    "Verif.RulesForce.C146_no_less_partial",
    "Verif.RulesForce.C146_onto_partial",
    "Verif.RulesForce.C146_targets_partial",
    "Verif.RulesForce.C146_usable_partial"
   ],
   "note": "Fails (C146_counterexample): of two target filters the second is left out. The other two witnesses, a target rule and a bind rule after a refused argument, need the stack library to end the call there; the library is not in /repo, so the model allows for both. Proved: C146_no_less_partial, C146_onto_partial, C146_usable_partial, C146_targets_partial, C146_at_once_partial, C146_bounds_partial and C146_bind_rules_partial."
  },
  {
   "property": "C147",
   "status": "proved",
   "theorems": [
    "Verif.TakenOut.C147_bind_rules",
    "Verif.TakenOut.C147_insert",
    "Verif.TakenOut.C147_instructions",
    "Verif.TakenOut.C147_permission_bind_rules",
    "Verif.TakenOut.C147_permits",
    "Verif.TakenOut.C147_remove",
    "Verif.TakenOut.C147_replace",
    "Verif.TakenOut.C147_target_remove",
    "Verif.TakenOut.C147_target_rules"
   ],
   "note": ""
  },
  {
   "property": "C148",
   "status": "proved",
   "theorems": [
    "Verif.LastFirst.C148_bind_rules",
    "Verif.LastFirst.C148_bind_rules_stop",
    "Verif.LastFirst.C148_instructions",
    "Verif.LastFirst.C148_permission_bind_rules",
    "Verif.LastFirst.C148_target_names",
    "Verif.LastFirst.C148_target_rules"
   ],
   "note": ""
  },
  {
   "property": "C149",
   "status": "partial",
   "theorems": [
    "Verif.Alike.C149_contexts_partial",
    "Verif.Alike.C149_counterexample",
    "Verif.Alike.C149_hash_partial",
    "Verif.Alike.C149_lists_partial",
    "Verif.Alike.C149_rules_partial",
    "Verif.Alike.C149_same_text",
    "Verif.Alike.C149_targets_partial"
   ],
   "note": "Fails (C149_counterexample): And(a, Or(b, c)) and Or(And(a, b), c) compare as equal, and a target rule with quotation marks in its value compares as equal to two target rules. Proved: C149_contexts_partial, C149_rules_partial, C149_lists_partial, C149_targets_partial and, for instructions, C149_hash_partial for rules whose text shows what they mean; C149_same_text in full. SHA-1 is a parameter that is taken to have no collisions."
  }
 ]
}