TIGHT = {
('Attempt.report', 'cause := cause.or'): ['C31_cause_is_kept'],
('fetchable', '(a.state == .running || a.state == .succeeded) && '): ['C06_attempt_is_added_once', 'C06_output_complete'],
('State.requiredWorkers', '(enqueued'): ['C45_enough_workers_are_requested', 'C45_no_needless_workers', 'C45_all_waiting_regions_are_placed'],
('State.exclude', '!r.contains'): ['C46_exclusion_removes_exactly_its_regions', 'C46_excluded_task_is_not_assigned'],
('addDriverSet', 'if vacant'): ['C08_driver_slot_holds_one_set'],
('removeDriverTask', 'removeTask slot k :: rest'): ['C08_driver_removal_keeps_other_tasks', 'C08_driver_removal_removes'],
('Entry.fetch', '| .created 0'): ['C16_surplus_reader_is_refused', 'C47_surplus_reader_gets_an_error'],
('Entry.timeout', '| .pending'): ['C47_waiting_readers_have_a_timeout', 'C47_timeout_fails_the_waiting'],
('RoundRobin.new', 'inputPartition * np / numInput -> inputPartition'): 'The claim still holds: inputs also begin spread with this offset, reduced modulo the number of partitions. C23_inputs_begin_spread was added; it fails for the offset 0.',
('toLit', '.tsMs v => some (.long v)'): 'Equivalent: no Iceberg column has millisecond timestamps.',
('microsToMonths', 'm > 0 ∨ m < 0'): 'Equivalent: both branches are the same number of months.',
('utf8Char', '% 32'): ['C49_bytes_of_strings'],
('tightenMin', '= .lt'): 'The claim still holds: a weaker bound skips fewer files and hides no row.',
('PType.isShort', '.timestamp => true'): 'Equivalent: literals of timestamp columns are longs.',
('manifestFiles', 'some m.files'): 'The claim still holds: no file is skipped, no row is hidden.',
('projectable', '!= none'): ['C51_success_means_keys_were_checked'],
('summaryOp', '.fastAppend => .overwrite'): ['C56_operation_name'],
('addTo', 'some (x + y)'): 'Equivalent: the counts of the manifests are filled in before, so the unknown case does not arise.',
('populate', 'deletedRows'): 'The claim still holds: no total or row id depends on the number of deleted rows of a manifest.',
('summaryOf', '1 < data.length'): ['C56_added_counts'],
('summaryOf', 'addedRecords'): ['C56_added_counts'],
('summaryOf', 'filesOf .posDel dels'): ['C56_added_counts'],
('inferredNext', 'some f'): ['C55_inferred_start'],
('inferredNext', '.min?'): ['C55_inferred_start'],
('install', 'current := m.current'): ['C53_new_snapshot_is_current'],
('retry', 'maxAttempts < p.attempt'): 'The claim still holds: the number of attempts does not matter for which commits show.',
('bufferAdd', 'buffer ++ [o]'): 'The claim still holds: an operation without a buffer cannot be resumed, so its buffer is not observable.',
('beat', '.next true'): ['C60_heartbeat_changes_nothing'],
('reattach', 'reply := some .ok'): ['C61_not_found_again'],
('hasTag', '| none => true'): 'Equivalent: the table holds no execution that does not exist.',
('opsOf', 'x.op ++ ""'): 'Equivalent (a control).',
('release', 'if true then'): ['C62_nothing_else_stops'],
('reattach', '!canReattach'): ['C62_only_reattachable_resume'],
('setAllowed', '!e.removed'): ['C64_removed_keys_accept_their_default'],
('isModifiable', '-> !e.isStatic'): ['C64_modifiable_can_be_set'],
('warnings', 'fun _ => none'): ['C64_warnings'],
('intRange', 'if n + 1 < 2'): ['C66_floor_integer_fits'],
('hashBytes', 'BitVec.ofNat 32 row'): 'The claim still holds: which columns an item is counted in is not specified; the estimates are upper bounds for every hash function.',
('merge', 'else if s.hashA'): ['C72_count_min_merges_alike'],
('isTrivial', 'decide (i < input.width)'): 'The claim still holds: a column out of range makes the visit fail, and the plan is kept.',
('isTrivial', '| .other _ => false'): 'The claim still holds: a computed column makes the visit fail, and the plan is kept unchanged.',
('candidates', 'isDisjoint e.right nodes'): 'The claim still holds: overlapping sets have no connecting edges, so no pair is formed from them.',
('cmpStep', 'if right.cardinality'): 'The claim still holds: a pair without plans on both sides is not stored.',
('validate', 'l ||| r'): 'The claim still holds: the check is redundant, since the search only stores joins whose inputs make up the set (C75).',
('validate', 'if d.set'): 'The claim still holds: the check is redundant, since the search only stores leaves under their own set (C75).',
('lowerChar', "c < 'Z'"): ['C81_names_equal'],
('On.classify', '| .sourceOnly, .targetOnly => .inl (l, r)'): ['C79_unique_source_is_single', 'C79_check_is_left_out_safely'],
('On.classify', '| _, _ => .inl (l, r)'): ['C79_unique_source_is_single', 'C79_check_is_left_out_safely'],
('TableOptions.valid', 'eqIgnoreCase o.format'): ['C83_new_table_refused'],
('TableOptions.valid', '!(o.partitionBy'): ['C83_new_table_refused'],
('TableOptions.columnStatuses', 'bs.any'): ['C83_new_table'],
('TableOptions.columnStatuses', 'default := c.default'): ['C83_new_table'],
('ViewOptions.status', 'none, false'): ['C83_new_view'],
('Session.resolveOptionalDatabase', 'if (find s.catalogs n).isSome then .ok (n, none)'): ['C84_list_databases'],
('Session.listDatabases', '(m.listDatabases pre).filter'): ['C84_list_databases'],
('textVal', 'if r == delim'): ['C88_closed', 'C88_raw_only', 'C88_tick_only'],
('parseTail', '| none => ([], ts)'): ['C89_only'],
('signedDigits', "if sign = ['-']"): ['C90_sign'],
('IKind.hasFraction', '| .minuteToSecond'): ['C93_standard', 'C93_standard_only'],
('IUnit.kind', '| .minute'): ['C93_single_unit'],
('Sym.inf', '| .or => some 13'): ['C92_order', 'C92_familiar'],
('Sym.post', '| .test _'): ['C92_order', 'C92_familiar'],
('number', 'if digitsVal w < '): ['C95_number'],
('decimalType', 'decide (38 < p)'): ['C95_decimal_width'],
('unitOf', 'else if p = 9'): ['C95_precision'],
('intWord', "else if k = ['L', 'O', 'N', 'G']"): ['C95_synonyms'],
('register', 'if false then'): ['C116_unregistered', 'C116_refused'],
('revive', 'if s.registration.error then -> if false then'): ['C116_refused'],
('revive', '-> sid ∈ s.committed'): ['C103_frozen'],
('mergeSlots', 't.replica⟩'): ['C103_covers', 'C103_response'],
('mapperEnd', 'committing := s.committing'): ['C103_frozen'],
('mapperEndDone', 'let s := { s with committing'): ['C103_frozen'],
('unregister', 'if false then'): ['C116_unregistered', 'C116_refused'],
('unregisterDone', 'attempts := s.attempts'): 'Equivalent for callers that ask for their ids: an id that was unregistered is not handed out again (C100), so nobody ends a mapper of it.',
('stop', '[.stop [] r]'): ['C116_stop_partial'],
('Registration.error', '| .failed => true'): ['C116_unregistered', 'C116_refused'],
('integralRank', '| .short => some 1'): ['C113_integers'],
('rankLess', 'decide (x ≤ y)'): 'Equivalent: the ranks of two types are equal only if the types are, and equal types are accepted anyway.',
('headerOf', 'c.numMetadata ≠ 1 ∧ c.numProtocol ≠ 1'): ['C111_wrong_counts_ignored'],
('Conn.call', '| .error e => (⟨c.stream, n'): ['C105_closed_after_error'],
('decodeMessage', '-> b.length < fromBE'): ['C105_message_whole'],
('drain', '| .error _ => ([], .ok rest)'): ['C106_corrupt'],
('decodeFrames', '| .ok r => .ok (r ++ l)'): ['C106_frames_in_order'],
('PushErr.cause', '| .io => none'): ['C108_push_again'],
('pushTask', 'some c, none, .ok (len'): ['C108_push_again'],
('Table.physical', '-> path'): ['C117_file_with_match_is_chosen_partial'],
('readPart', 'if s = "" then .null'): ['C118_null_markers'],
('applicable', 'applicable parts e'): ['C118_left_to_the_engine'],
('reportedExact', '!e.free'): ['C118_left_to_the_engine'],
('likeFilter', '1 < p.length'): 'The claim still holds: the pattern %% becomes "contains the empty text", which every text does.',
('CState.fail', 'some _ => some e'): ['C124_first_error'],
('deserialize', 'if False then .error .magic'): ['C135_foreign_refused'],
('isString', '.other _ => true'): ['C139_other_types'],
('integralPrecision', '.float _ => some 7'): ['C139_strict_float'],
('matchesField', 'source.physical = some p'): ['C141_identity'],
('matchesField', 'none => decide (source.name = target.name)'): ['C141_identity'],
('validateStruct', '/-! ### Arrays -> /-! ### Arrays'): ['C141_required_fields_exist'],
('castArr', 'if True then'): ['C141_required_fields_exist'],
    ("mergeSchema", "&& !r.1.isEmpty then"): ["C143_names"],
    ("mergeSchema", "-> if !(addNew"): ["C143_widened"],
    ("Ty.sameKind", "| _, _ => true"): ["C145_map_value"],
  ('validate', '(c.nullable || c.default.isSome) -> true'): 'equivalent: a required column without a default that is not in the input is refused again when the columns are aligned',
  ('Arr.valid', 'rows.map fun _ => true'): 'equivalent: the columns that are taken over were valid before and the new one may be NULL, so the check for NULLs in plain columns never fails',
    ('isNan', '.float _, .null => some false'): 'equivalent: the value of isnan for NULL is only used beside a test for NULL, which already decides both conditions',
}
