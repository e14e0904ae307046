'Sudoku.Props.C01_solve_sound' depends on axioms: [propext, Classical.choice, Quot.sound]
'Sudoku.Props.C02_solve_complete' depends on axioms: [propext, Classical.choice, Quot.sound]
'Sudoku.Props.parse_solve' depends on axioms: [propext, Classical.choice, Quot.sound]
'Sudoku.Props.C03_no_solution_truthful' depends on axioms: [propext, Classical.choice, Quot.sound]
'Sudoku.Props.C04_unique' depends on axioms: [propext, Classical.choice, Quot.sound]
'Sudoku.Props.C04_fixed_point' depends on axioms: [propext, Classical.choice, Quot.sound]
'Sudoku.Props.C05_partial' depends on axioms: [propext, Classical.choice, Quot.sound]
'Sudoku.Props.C05_false' depends on axioms: [propext, Classical.choice, Quot.sound]
'Sudoku.Props.C05_use_after_free_iff' depends on axioms: [propext, Classical.choice, Quot.sound]
'Sudoku.Props.C05_use_after_free_digits' depends on axioms: [propext, Classical.choice, Quot.sound]
'Sudoku.Props.C06_no_leak' depends on axioms: [propext, Classical.choice, Quot.sound]
'Sudoku.Props.C07_solve_size' depends on axioms: [propext, Classical.choice, Quot.sound]
'Sudoku.Props.C07_print_size' depends on axioms: [propext, Classical.choice, Quot.sound]
'Sudoku.Props.C08_partial' depends on axioms: [propext, Classical.choice, Quot.sound]
'Sudoku.Props.C08_false' depends on axioms: [propext, Classical.choice, Quot.sound]
'Sudoku.Props.C08_ok_iff' depends on axioms: [propext, Classical.choice, Quot.sound]
'Sudoku.Props.C09_parse_ok_iff' depends on axioms: [propext, Classical.choice, Quot.sound]
'Sudoku.Props.C09_parsed_ordinary' depends on axioms: [propext, Classical.choice, Quot.sound]
'Sudoku.Props.C10_invalid_integer_iff' depends on axioms: [propext, Classical.choice, Quot.sound]
'Sudoku.Props.C10_invalid_size_iff' depends on axioms: [propext, Classical.choice, Quot.sound]
'Sudoku.Props.C10_no_other_error' depends on axioms: [propext, Classical.choice, Quot.sound]
'Sudoku.Props.C11_terminates' depends on axioms: [propext, Classical.choice, Quot.sound]
'Sudoku.Props.C12_print' depends on axioms: [propext, Classical.choice, Quot.sound]
'Sudoku.Props.C12_empty' depends on axioms: [propext, Classical.choice, Quot.sound]
'DancingLinks.Props.C13_solve_sound' depends on axioms: [propext, Classical.choice, Quot.sound]
'DancingLinks.Props.C14_solve_complete' depends on axioms: [propext, Classical.choice, Quot.sound]
'DancingLinks.Props.C15_preselected' depends on axioms: [propext, Classical.choice, Quot.sound]
'DancingLinks.Props.C15_any_history' depends on axioms: [propext, Classical.choice, Quot.sound]
'DancingLinks.Props.C16_add_outcome' depends on axioms: [propext, Classical.choice, Quot.sound]
'DancingLinks.Props.C16_results' depends on axioms: [propext, Classical.choice, Quot.sound]
'DancingLinks.Props.C16_use_after_free' depends on axioms: [propext, Classical.choice, Quot.sound]
'DancingLinks.Props.C17_cover_uncover' depends on axioms: [propext, Classical.choice, Quot.sound]
'DancingLinks.Props.C18_failed_search_pure' depends on axioms: [propext, Classical.choice, Quot.sound]
'DancingLinks.Props.C19_no_leak' depends on axioms: [propext, Classical.choice, Quot.sound]
'DancingLinks.Props.new_ok' depends on axioms: [propext, Classical.choice, Quot.sound]
'DisjointSet.Props.C20_common_set_iff_linked' depends on axioms: [propext, Classical.choice, Quot.sound]
'DisjointSet.Props.C21_find_canonical' depends on axioms: [propext, Classical.choice, Quot.sound]
'DisjointSet.Props.C21_queries_pure' depends on axioms: [propext, Classical.choice, Quot.sound]
'DisjointSet.Props.C21_queries_pure_later' depends on axioms: [propext, Classical.choice, Quot.sound]
'DisjointSet.Props.C22_total_and_none_iff' depends on axioms: [propext, Classical.choice, Quot.sound]
'DisjointSet.Props.withSize_ok' depends on axioms: [propext]
'DisjointSet.Props.C23_union_merges' depends on axioms: [propext, Classical.choice, Quot.sound]
'DisjointSet.Props.C23_union_return' depends on axioms: [propext, Classical.choice, Quot.sound]
'DisjointSet.Props.C23_root_counts' depends on axioms: [propext, Classical.choice, Quot.sound]
'DisjointSet.Props.C23_depth_log' depends on axioms: [propext, Classical.choice, Quot.sound]
'DisjointSet.Props.size_le' depends on axioms: [propext, Classical.choice, Quot.sound]
'Maze.Props.C24_perfect' depends on axioms: [propext, Classical.choice, Quot.sound]
'Maze.Props.C25_outer_walls' depends on axioms: [propext, Classical.choice, Quot.sound]
'Maze.Props.C26_partial' depends on axioms: [propext, Classical.choice, Quot.sound]
'Maze.Props.C26_false' depends on axioms: [propext, Classical.choice, Quot.sound]
'Maze.Props.C54_solution_iff' depends on axioms: [propext, Classical.choice, Quot.sound]
'Maze.Props.C27_shortest' depends on axioms: [propext, Classical.choice, Quot.sound]
'Maze.Props.C28_exit_farthest' depends on axioms: [propext, Classical.choice, Quot.sound]
'Maze.Props.C29_terminates' depends on axioms: [propext, Classical.choice, Quot.sound]
'Maze.Props.C29_too_big' depends on axioms: [propext, Classical.choice, Quot.sound]
'Maze.Props.C30_choose_random' depends on axioms: [propext, Classical.choice, Quot.sound]
'Maze.Props.C30_every_element' depends on axioms: [propext, Classical.choice, Quot.sound]
'Maze.Props.C30_uniform' depends on axioms: [propext, Classical.choice, Quot.sound]
'Maze.Props.C31_print_maze' depends on axioms: [propext, Classical.choice, Quot.sound]
'Maze.Props.C31_invalid_dimensions' depends on axioms: [propext, Quot.sound]
'Maze.Props.C32_faithful' depends on axioms: [propext, Classical.choice, Quot.sound]
'Maze.Props.C33_no_panic' depends on axioms: [propext, Classical.choice, Quot.sound]
'Maze.Props.C33_invalid_dimensions' depends on axioms: [propext, Classical.choice, Quot.sound]
'Maze.Props.C34_partial' depends on axioms: [propext, Classical.choice, Quot.sound]
'Maze.Props.C34_false' depends on axioms: [propext, Classical.choice, Quot.sound]
'Maze.Props.C56_pipeline_always_rejected' depends on axioms: [propext, Classical.choice, Quot.sound]
'Maze.Props.C35_paints_route' depends on axioms: [propext, Classical.choice, Quot.sound]
'Maze.Props.C36_partial' depends on axioms: [propext, Classical.choice, Quot.sound]
'Maze.Props.C36_false_left' depends on axioms: [propext, Classical.choice, Quot.sound]
'Maze.Props.C36_false_end' depends on axioms: [propext, Classical.choice, Quot.sound]
'Maze.Props.C55_acceptance' depends on axioms: [propext, Classical.choice, Quot.sound]
'Nonogram.Props.C37_round_trip' depends on axioms: [propext, Classical.choice, Quot.sound]
'Nonogram.Props.C38_partial' depends on axioms: [propext, Quot.sound]
'Nonogram.Props.C38_false' depends on axioms: [propext, Classical.choice, Quot.sound]
'Nonogram.Props.C57_wrapping' depends on axioms: [propext, Quot.sound]
'Nonogram.Props.C57_checked' depends on axioms: [propext, Quot.sound]
'Nonogram.Props.C39_partial' depends on axioms: [propext, Quot.sound]
'Nonogram.Props.C39_false' depends on axioms: [propext, Classical.choice, Quot.sound]
'Nonogram.Props.C40_sound' depends on axioms: [propext, Classical.choice, Quot.sound]
'Nonogram.Props.C41_unsolvable' depends on axioms: [propext, Classical.choice, Quot.sound]
'Nonogram.Props.C42_leftmost' depends on axioms: [propext, Classical.choice, Quot.sound]
'Nonogram.Props.C43_sound' depends on axioms: [propext, Classical.choice, Quot.sound]
'Nonogram.Props.C44_no_solution' depends on axioms: [propext, Classical.choice, Quot.sound]
'Nonogram.Props.C45_partial' depends on axioms: [propext, Classical.choice, Quot.sound]
'Nonogram.Props.C45_false' depends on axioms: [propext, Classical.choice, Quot.sound]
'Nonogram.Props.C59_exact' depends on axioms: [propext, Classical.choice, Quot.sound]
'Nonogram.Props.C46_partial' depends on axioms: [propext, Classical.choice, Quot.sound]
'Nonogram.Props.C46_false' depends on axioms: [propext, Classical.choice, Quot.sound]
'Nonogram.Props.C60_least' depends on axioms: [propext, Classical.choice, Quot.sound]
'Nonogram.Props.C47_terminates' depends on axioms: [propext, Classical.choice, Quot.sound]
'Nonogram.Props.C48_partial' depends on axioms: [propext, Classical.choice, Quot.sound]
'Nonogram.Props.C48_false' depends on axioms: [propext, Classical.choice, Quot.sound]
'Nonogram.Props.C112_accepted' depends on axioms: [propext, Classical.choice, Quot.sound]
'Nonogram.Props.C49_fixpoint' depends on axioms: [propext, Classical.choice, Quot.sound]
'Nonogram.Props.C50_invalid_dimensions' depends on axioms: [propext, Classical.choice, Quot.sound]
'Nonogram.Props.C50_print' depends on axioms: [propext, Classical.choice, Quot.sound]
'Nonogram.Props.C51_invalid_dimensions' depends on axioms: [propext, Classical.choice, Quot.sound]
'Nonogram.Props.C51_fills' depends on axioms: [propext, Classical.choice, Quot.sound]
'Nonogram.Props.C58_exact' depends on axioms: [propext, Classical.choice, Quot.sound]
'Nonogram.Props.C58_empty' depends on axioms: [propext, Classical.choice, Quot.sound]
'Nonogram.Props.C58_incomplete' depends on axioms: [propext, Classical.choice, Quot.sound]
'Nonogram.Props.C59_ambiguous' depends on axioms: [propext, Classical.choice, Quot.sound]
'Nonogram.Props.C61_pipeline' depends on axioms: [propext, Classical.choice, Quot.sound]
'Nonogram.Props.C61_overpaints' depends on axioms: [propext, Classical.choice, Quot.sound]
'Nonogram.Props.C62_transpose' depends on axioms: [propext, Classical.choice, Quot.sound]
'DisjointSet.Props.C63_path_compression' depends on axioms: [propext, Classical.choice, Quot.sound]
'DisjointSet.Props.C63_second_find_short' depends on axioms: [propext, Classical.choice, Quot.sound]
'DisjointSet.Props.C64_union_by_size' depends on axioms: [propext, Classical.choice, Quot.sound]
'DancingLinks.Props.C65_algorithm_x' depends on axioms: [propext, Classical.choice, Quot.sound]
'DancingLinks.Props.algorithmX_eq' depends on axioms: [propext, Quot.sound]
'Sudoku.Props.C66_by_hand' depends on axioms: [propext, Classical.choice, Quot.sound]
'Sudoku.Props.shows_unique' depends on axioms: [propext, Quot.sound]
'Nonogram.Props.C67_line' depends on axioms: [propext, Classical.choice, Quot.sound]
'Nonogram.Props.C67_zero' depends on axioms: [propext, Classical.choice, Quot.sound]
'Nonogram.Props.C67_solvable' depends on axioms: [propext, Classical.choice, Quot.sound]
'Nonogram.Props.C67_column' depends on axioms: [propext, Classical.choice, Quot.sound]
'Nonogram.Props.C67_accepted' depends on axioms: [propext, Classical.choice, Quot.sound]
'Nonogram.Props.C68_exact' depends on axioms: [propext, Classical.choice, Quot.sound]
'Nonogram.Props.C68_accepted' depends on axioms: [propext, Classical.choice, Quot.sound]
'Nonogram.Props.C69_no_rows' depends on axioms: [propext, Classical.choice, Quot.sound]
'Maze.Props.C70_depth_first' depends on axioms: [propext, Classical.choice, Quot.sound]
'Maze.Props.C70_entrance' depends on axioms: [propext, Classical.choice, Quot.sound]
'Maze.Props.C71_range' depends on axioms: [propext, Classical.choice, Quot.sound]
'Maze.Props.C71_create' depends on axioms: [propext, Classical.choice, Quot.sound]
'Maze.Props.C72_draws' depends on axioms: [propext, Classical.choice, Quot.sound]
'Maze.Props.C73_last_route' depends on axioms: [propext, Classical.choice, Quot.sound]
'Maze.Props.C73_unique' depends on axioms: [propext, Classical.choice, Quot.sound]
'Nonogram.Props.C74_mirror' depends on axioms: [propext, Classical.choice, Quot.sound]
'Nonogram.Props.C74_upside_down' depends on axioms: [propext, Classical.choice, Quot.sound]
'Errors.Props.C75_dancing_links' depends on axioms: [propext, Classical.choice, Quot.sound]
'Errors.Props.C75_maze' depends on axioms: [propext, Classical.choice, Quot.sound]
'Errors.Props.C75_sudoku' depends on axioms: [propext, Classical.choice, Quot.sound]
'Errors.Props.C75_nonogram' depends on axioms: [propext, Classical.choice, Quot.sound]
'Maze.Props.C76_backtrack' depends on axioms: [propext, Classical.choice, Quot.sound]
'Maze.Props.C76_search' depends on axioms: [propext, Classical.choice, Quot.sound]
'Nonogram.Props.C77_passes' depends on axioms: [propext, Classical.choice, Quot.sound]
'Maze.Props.C78_orders' depends on axioms: [propext, Classical.choice, Quot.sound]
'Maze.Props.C78_law' depends on axioms: [propext, Classical.choice, Quot.sound]
'Maze.Props.C78_search' depends on axioms: [propext, Classical.choice, Quot.sound]
'Maze.Props.C78_entrance' depends on axioms: [propext, Classical.choice, Quot.sound]
'Maze.Props.C79_transpose' depends on axioms: [propext, Classical.choice, Quot.sound]
'DancingLinks.Props.C80_depth' depends on axioms: [propext, Classical.choice, Quot.sound]
'DancingLinks.Props.C80_depth_rows' depends on axioms: [propext, Classical.choice, Quot.sound]
'DancingLinks.Props.C80_frames' depends on axioms: [propext, Classical.choice, Quot.sound]
'Sudoku.Props.C80_sudoku' depends on axioms: [propext, Classical.choice, Quot.sound]
'Sudoku.Props.C80_sudoku_least' depends on axioms: [propext, Classical.choice, Quot.sound]
'Maze.Props.C81_returns_iff' depends on axioms: [propext, Classical.choice, Quot.sound]
'DancingLinks.Props.C82_new' depends on axioms: [propext, Classical.choice, Quot.sound]
'DancingLinks.Props.C82_drop' depends on axioms: [propext, Classical.choice, Quot.sound]
'DancingLinks.Props.C82_absent' depends on axioms: [propext, Classical.choice, Quot.sound]
'DancingLinks.Props.C82_empty' depends on axioms: [propext, Classical.choice, Quot.sound]
'DancingLinks.Props.C82_partial' depends on axioms: [propext, Classical.choice, Quot.sound]
'DancingLinks.Props.C82_false' depends on axioms: [propext, Classical.choice, Quot.sound]
'DancingLinks.Props.C82_add_false' depends on axioms: [propext, Classical.choice, Quot.sound]
'DancingLinks.Props.C82_wrong' depends on axioms: [propext, Classical.choice, Quot.sound]
'DancingLinks.Props.C82_endless' depends on axioms: [propext, Classical.choice, Quot.sound]
'Sudoku.Props.C83_symmetry' depends on axioms: [propext, Classical.choice, Quot.sound]
'Maze.Props.C84_route_counts' depends on axioms: [propext, Classical.choice, Quot.sound]
'DancingLinks.Props.C85_calls' depends on axioms: [propext, Classical.choice, Quot.sound]
'DancingLinks.Props.C85_dead_end' depends on axioms: [propext, Classical.choice, Quot.sound]
'Sudoku.Props.C86_singles' depends on axioms: [propext, Classical.choice, Quot.sound]
'Sudoku.Props.C86_counter' depends on axioms: [propext, Classical.choice, Quot.sound]
'Nonogram.Props.C87_picture' depends on axioms: [propext, Classical.choice, Quot.sound]
'Nonogram.Props.C88_overlap' depends on axioms: [propext, Classical.choice, Quot.sound]
'Nonogram.Props.C88_one_way' depends on axioms: [propext, Classical.choice, Quot.sound]
'Nonogram.Props.C88_one_way_iff' depends on axioms: [propext, Classical.choice, Quot.sound]
'Nonogram.Props.C88_single' depends on axioms: [propext, Classical.choice, Quot.sound]
'DisjointSet.Props.C89_find_frames' depends on axioms: [propext, Classical.choice, Quot.sound]
'Maze.Props.C90_route_white' depends on axioms: [propext, Classical.choice, Quot.sound]
'Maze.Props.C90_created' depends on axioms: [propext, Classical.choice, Quot.sound]
'Maze.Props.C90_painted' depends on axioms: [propext, Classical.choice, Quot.sound]
'DisjointSet.Props.C91_amortised' depends on axioms: [propext, Classical.choice, Quot.sound]
'DisjointSet.Props.C91_machine' depends on axioms: [propext, Classical.choice, Quot.sound]
'DisjointSet.Props.C91_counter' depends on axioms: [propext, Classical.choice, Quot.sound]
'Sudoku.Props.C92_erase' depends on axioms: [propext, Classical.choice, Quot.sound]
'Sudoku.Props.C92_enter' depends on axioms: [propext, Classical.choice, Quot.sound]
'Sudoku.Props.C92_again' depends on axioms: [propext, Classical.choice, Quot.sound]
'Sudoku.Props.C92_second' depends on axioms: [propext, Classical.choice, Quot.sound]
'Sudoku.Props.C92_symmetric' depends on axioms: [propext, Classical.choice, Quot.sound]
'Sudoku.Props.C92_digits' depends on axioms: [propext, Classical.choice, Quot.sound]
'Sudoku.Props.C92_rows' depends on axioms: [propext, Classical.choice, Quot.sound]
'Sudoku.Props.C92_cols' depends on axioms: [propext, Classical.choice, Quot.sound]
'Nonogram.Props.C93_read' depends on axioms: [propext, Classical.choice, Quot.sound]
'Nonogram.Props.C93_faithful' depends on axioms: [propext, Classical.choice, Quot.sound]
'Nonogram.Props.C93_twice' depends on axioms: [propext, Classical.choice, Quot.sound]
'Sudoku.Props.C94_cells' depends on axioms: [propext, Classical.choice, Quot.sound]
'Sudoku.Props.C94_faithful' depends on axioms: [propext, Classical.choice, Quot.sound]
'Sudoku.Props.C94_answer' depends on axioms: [propext, Classical.choice, Quot.sound]
'Nonogram.Props.C95_steps' depends on axioms: [propext, Classical.choice, Quot.sound]
'Nonogram.Props.C95_square' depends on axioms: [propext, Classical.choice, Quot.sound]
'Maze.Props.C96_linear' depends on axioms: [propext, Classical.choice, Quot.sound]
'DancingLinks.Props.C97_upper' depends on axioms: [propext, Classical.choice, Quot.sound]
'DancingLinks.Props.C97_exponential' depends on axioms: [propext, Classical.choice, Quot.sound]
'Sudoku.Props.C97_sudoku' depends on axioms: [propext, Classical.choice, Quot.sound]
'DancingLinks.Props.C98_session' depends on axioms: [propext, Classical.choice, Quot.sound]
'DancingLinks.Props.C98_clean' depends on axioms: [propext, Classical.choice, Quot.sound]
'Sudoku.Props.C98_sudoku' depends on axioms: [propext, Classical.choice, Quot.sound]
'DancingLinks.Props.C99_null' depends on axioms: [propext, Classical.choice, Quot.sound]
'Sudoku.Props.C99_sudoku' depends on axioms: [propext, Classical.choice, Quot.sound]
'Serde.Props.C100_maze' depends on axioms: [propext, Quot.sound]
'Serde.Props.C100_node_iff' depends on axioms: [propext, Classical.choice, Quot.sound]
'Serde.Props.C100_dir_iff' depends on axioms: [propext]
'Serde.Props.C100_grid_iff' depends on axioms: [propext, Quot.sound]
'Serde.Props.C100_injective' depends on axioms: [propext, Quot.sound]
'DisjointSet.Props.C101_depth_attained' depends on axioms: [propext, Classical.choice, Quot.sound]
'DancingLinks.Props.C102_new' depends on axioms: [propext, Classical.choice, Quot.sound]
'DancingLinks.Props.C102_add' depends on axioms: [propext, Classical.choice, Quot.sound]
'DancingLinks.Props.C102_history' depends on axioms: [propext, Classical.choice, Quot.sound]
'DancingLinks.Props.C102_solve' depends on axioms: [propext, Classical.choice, Quot.sound]
'DancingLinks.Props.C102_drop' depends on axioms: [propext, Classical.choice, Quot.sound]
'Sudoku.Props.C102_sudoku' depends on axioms: [propext, Classical.choice, Quot.sound]
'Sudoku.Props.C102_singles' depends on axioms: [propext, Classical.choice, Quot.sound]
'Sudoku.Props.C102_all' depends on axioms: [propext, Classical.choice, Quot.sound]
'Maze.Props.C103_bounds' depends on axioms: [propext, Classical.choice, Quot.sound]
'Maze.Props.C103_longest' depends on axioms: [propext, Classical.choice, Quot.sound]
'Maze.Props.C103_shortest' depends on axioms: [propext, Classical.choice, Quot.sound]
'Maze.Props.C104_neighbours' depends on axioms: [propext, Classical.choice, Quot.sound]
'Maze.Props.C104_columns' depends on axioms: [propext, Classical.choice, Quot.sound]
'Maze.Props.C104_corners' depends on axioms: [propext, Classical.choice, Quot.sound]
'Maze.Props.C105_debug' depends on axioms: [propext, Classical.choice, Quot.sound]
'Maze.Props.C105_release' depends on axioms: [propext, Classical.choice, Quot.sound]
'Maze.Props.C105_same' depends on axioms: [propext, Quot.sound]
'Maze.Props.C105_small_picture' depends on axioms: [propext, Classical.choice, Quot.sound]
'Maze.Props.C105_unfaithful' depends on axioms: [propext, Classical.choice, Quot.sound]
'Maze.Props.C106_panics' depends on axioms: [propext, Classical.choice, Quot.sound]
'Maze.Props.C106_pictures' depends on axioms: [propext, Classical.choice, Quot.sound]
'Maze.Props.C106_errors' depends on axioms: [propext, Classical.choice, Quot.sound]
'Maze.Props.C106_sharp' depends on axioms: [propext, Classical.choice, Quot.sound]
'Nonogram.Props.C107_clear' depends on axioms: [propext, Quot.sound]
'Nonogram.Props.C107_begin' depends on axioms: [propext, Quot.sound]
'Nonogram.Props.C107_inside' depends on axioms: [propext, Classical.choice, Quot.sound]
'Nonogram.Props.C107_covered' depends on axioms: [propext, Classical.choice, Quot.sound]
'Nonogram.Props.C108_fills' depends on axioms: [propext, Classical.choice, Quot.sound]
'Nonogram.Props.C108_faithful' depends on axioms: [propext, Classical.choice, Quot.sound]
'Nonogram.Props.C108_errors' depends on axioms: [propext, Quot.sound]
'Maze.Props.C109_carved' depends on axioms: [propext, Classical.choice, Quot.sound]
'Maze.Props.C109_solution' depends on axioms: [propext, Classical.choice, Quot.sound]
'Maze.Props.C110_columns' depends on axioms: [propext, Classical.choice, Quot.sound]
'Nonogram.Props.C111_debug' depends on axioms: [propext, Classical.choice, Quot.sound]
'Nonogram.Props.C111_release' depends on axioms: [propext, Classical.choice, Quot.sound]
'Nonogram.Props.C111_same' depends on axioms: [propext, Classical.choice, Quot.sound]
'Nonogram.Props.C111_empty' depends on axioms: [propext, Classical.choice, Quot.sound]
'Nonogram.Props.C112_panics' depends on axioms: [propext, Classical.choice, Quot.sound]
'Nonogram.Props.C112_no_solution' depends on axioms: [propext, Classical.choice, Quot.sound]
'Maze.Props.C113_create_maze' depends on axioms: [propext, Classical.choice, Quot.sound]
'Maze.Props.C113_print_maze' does not depend on any axioms
'Maze.Props.C113_print_maze_solution' does not depend on any axioms
'Sudoku.Props.C113_print_sudoku' depends on axioms: [propext, Classical.choice, Quot.sound]
'Nonogram.Props.C113_parse' depends on axioms: [propext]
'Nonogram.Props.C113_solve' depends on axioms: [propext, Classical.choice, Quot.sound]
'Nonogram.Props.C113_solve_same' depends on axioms: [propext, Classical.choice, Quot.sound]
'Nonogram.Props.C113_print' depends on axioms: [propext]
'Nonogram.Props.C113_print_solution' does not depend on any axioms
'Maze.Props.C114_stack' depends on axioms: [propext, Classical.choice, Quot.sound]
'Maze.Props.C114_full' depends on axioms: [propext, Classical.choice, Quot.sound]
'Maze.Props.C114_queue' depends on axioms: [propext, Classical.choice, Quot.sound]
'Nonogram.Props.C115_filled' depends on axioms: [propext, Classical.choice, Quot.sound]
'Nonogram.Props.C115_no_solution' depends on axioms: [propext, Classical.choice, Quot.sound]
'Nonogram.Props.C115_solved' depends on axioms: [propext, Classical.choice, Quot.sound]
'Nonogram.Props.C115_solution' depends on axioms: [propext, Quot.sound]
'Nonogram.Props.C115_misses' depends on axioms: [propext, Classical.choice, Quot.sound]
'Nonogram.Props.C115_misses_clash' depends on axioms: [propext, Classical.choice, Quot.sound]
'Nonogram.Props.C116_top' depends on axioms: [propext, Classical.choice, Quot.sound]
'Nonogram.Props.C116_left' depends on axioms: [propext, Classical.choice, Quot.sound]
'Nonogram.Props.C116_right' depends on axioms: [propext, Classical.choice, Quot.sound]
'Nonogram.Props.C116_bottom' depends on axioms: [propext, Classical.choice, Quot.sound]
'Nonogram.Props.C117_line' depends on axioms: [propext, Classical.choice, Quot.sound]
'Nonogram.Props.C117_wrong' depends on axioms: [propext, Classical.choice, Quot.sound]
'Nonogram.Props.C117_undetected' depends on axioms: [propext, Classical.choice, Quot.sound]
'Nonogram.Props.C117_two_two' depends on axioms: [propext, Classical.choice, Quot.sound]
'Nonogram.Props.C118_small' depends on axioms: [propext, Classical.choice, Quot.sound]
'Nonogram.Props.C118_missed' depends on axioms: [propext, Classical.choice, Quot.sound]
'Maze.Props.C119_apart' depends on axioms: [propext, Classical.choice, Quot.sound]
'Maze.Props.C119_number' depends on axioms: [propext, Classical.choice, Quot.sound]
'Maze.Props.C119_one' depends on axioms: [propext, Classical.choice, Quot.sound]
'Maze.Props.C119_all' depends on axioms: [propext, Classical.choice, Quot.sound]
'Sudoku.Props.C120_sudoku' depends on axioms: [propext, Classical.choice, Quot.sound]
'Nonogram.Props.C120_nonogram' depends on axioms: [propext, Classical.choice, Quot.sound]
'Maze.Props.C121_odds' depends on axioms: [propext, Classical.choice, Quot.sound]
'Maze.Props.C121_powers' depends on axioms: [propext, Classical.choice, Quot.sound]
'Maze.Props.C122_count' depends on axioms: [propext, Classical.choice, Quot.sound]
'Maze.Props.C122_uniform' depends on axioms: [propext, Classical.choice, Quot.sound]
'Maze.Props.C122_least' depends on axioms: [propext, Classical.choice, Quot.sound]
'Maze.Props.C123_same' depends on axioms: [propext, Classical.choice, Quot.sound]
'Maze.Props.C123_odds' depends on axioms: [propext, Classical.choice, Quot.sound]
'Maze.Props.C123_count' depends on axioms: [propext, Classical.choice, Quot.sound]
'Maze.Props.C124_most' depends on axioms: [propext, Classical.choice, Quot.sound]
'Maze.Props.C124_count' depends on axioms: [propext, Classical.choice, Quot.sound]
'Nonogram.Props.C125_debug' depends on axioms: [propext, Classical.choice, Quot.sound]
'Nonogram.Props.C125_release' depends on axioms: [propext, Classical.choice, Quot.sound]
'Nonogram.Props.C125_lost' depends on axioms: [propext, Classical.choice, Quot.sound]
'Png.Props.C126_bytes' depends on axioms: [propext, Classical.choice, Quot.sound]
'Png.Props.C126_faithful' depends on axioms: [propext, Classical.choice, Quot.sound]
'Png.Props.C126_maze' depends on axioms: [propext, Classical.choice, Quot.sound]
'Png.Props.C126_sudoku' depends on axioms: [propext, Classical.choice, Quot.sound]
'Png.Props.C126_nonogram' depends on axioms: [propext, Classical.choice, Quot.sound]
'Nonogram.Props.C127_needed' depends on axioms: [propext, Classical.choice, Quot.sound]
'Nonogram.Props.C127_tight' depends on axioms: [propext, Classical.choice, Quot.sound]
'DancingLinks.Props.C128_exact' depends on axioms: [propext, Classical.choice, Quot.sound]
'DancingLinks.Props.C128_small' depends on axioms: [propext, Classical.choice, Quot.sound]
'DancingLinks.Props.C128_large' depends on axioms: [propext, Classical.choice, Quot.sound]
'DancingLinks.Props.C128_leak' depends on axioms: [propext, Classical.choice, Quot.sound]
'Nonogram.Props.C129_panics' depends on axioms: [propext, Classical.choice, Quot.sound]
'Nonogram.Props.C129_release' depends on axioms: [propext, Classical.choice, Quot.sound]
'Nonogram.Props.C129_exact' depends on axioms: [propext, Classical.choice, Quot.sound]
'Nonogram.Props.C129_wrong' depends on axioms: [propext, Classical.choice, Quot.sound]
'DancingLinks.Props.C130_accepted' depends on axioms: [propext, Classical.choice, Quot.sound]
'DancingLinks.Props.C130_answer' depends on axioms: [propext, Classical.choice, Quot.sound]
'DancingLinks.Props.C130_model' depends on axioms: [propext, Classical.choice, Quot.sound]
'DancingLinks.Props.C130_not_cover' depends on axioms: [propext, Classical.choice, Quot.sound]
'DancingLinks.Props.C130_not_cover_clean' depends on axioms: [propext, Classical.choice, Quot.sound]
'DancingLinks.Props.C130_missed' depends on axioms: [propext, Classical.choice, Quot.sound]
'DancingLinks.Props.C130_builds' depends on axioms: [propext, Classical.choice, Quot.sound]
'DancingLinks.Props.C131_builds' depends on axioms: [propext, Classical.choice, Quot.sound]
'DancingLinks.Props.C131_answer' depends on axioms: [propext, Classical.choice, Quot.sound]
'DancingLinks.Props.C131_sudoku' depends on axioms: [propext, Classical.choice, Quot.sound]
'DancingLinks.Props.C131_repeats' depends on axioms: [propext, Classical.choice, Quot.sound]
'Sudoku.Props.C132_builds' depends on axioms: [propext, Classical.choice, Quot.sound]
'Sudoku.Props.C132_total' depends on axioms: [propext, Classical.choice, Quot.sound]
'Sudoku.Props.C132_complete' depends on axioms: [propext, Classical.choice, Quot.sound]
'Sudoku.Props.C132_matrix' depends on axioms: [propext, Classical.choice, Quot.sound]
'Maze.Props.C133_create_maze' depends on axioms: [propext, Classical.choice, Quot.sound]
'Maze.Props.C133_perfect' depends on axioms: [propext, Classical.choice, Quot.sound]
'Maze.Props.C133_returns_iff' depends on axioms: [propext, Classical.choice, Quot.sound]
'Maze.Props.C133_64' depends on axioms: [propext, Classical.choice, Quot.sound]
'Nonogram.Props.C134_solve' depends on axioms: [propext, Classical.choice, Quot.sound]
'Nonogram.Props.C134_panics' depends on axioms: [propext, Classical.choice, Quot.sound]
'Nonogram.Props.C134_parse' depends on axioms: [propext, Quot.sound]
'Nonogram.Props.C134_same' depends on axioms: [propext, Classical.choice, Quot.sound]
'Nonogram.Props.C134_release' depends on axioms: [propext, Quot.sound]
'Nonogram.Props.C134_errors' depends on axioms: [propext, Quot.sound]
'Nonogram.Props.C134_accepted' depends on axioms: [propext, Classical.choice, Quot.sound]
'Nonogram.Props.C134_wraps' depends on axioms: [propext, Classical.choice, Quot.sound]
'Nonogram.Props.C134_huge' depends on axioms: [propext, Classical.choice, Quot.sound]
'Nonogram.Props.C134_64' depends on axioms: [propext, Classical.choice, Quot.sound]
'PrintTarget.Props.C135_maze' depends on axioms: [propext, Quot.sound]
'PrintTarget.Props.C135_maze_ok' depends on axioms: [propext, Classical.choice, Quot.sound]
'PrintTarget.Props.C135_maze_debug' depends on axioms: [propext, Quot.sound]
'PrintTarget.Props.C135_maze_wraps' depends on axioms: [propext, Quot.sound]
'PrintTarget.Props.C135_nonogram' depends on axioms: [propext, Classical.choice, Quot.sound]
'PrintTarget.Props.C135_solution' depends on axioms: [propext]
'PrintTarget.Props.C135_solution_large' depends on axioms: [propext, Classical.choice, Quot.sound]
'PrintTarget.Props.C135_solution_wraps' depends on axioms: [propext]
'PrintTarget.Props.C135_64' depends on axioms: [propext, Quot.sound]
'PrintTarget.Props.C136_maze' depends on axioms: [propext, Classical.choice, Quot.sound]
'PrintTarget.Props.C136_nonogram' depends on axioms: [propext, Classical.choice, Quot.sound]
'Nonogram.Props.C137_wrapping' depends on axioms: [propext, Quot.sound]
'Nonogram.Props.C137_checked' depends on axioms: [propext, Quot.sound]
'Nonogram.Props.C137_builds' depends on axioms: [propext, Quot.sound]
'Nonogram.Props.C137_large' depends on axioms: [propext, Classical.choice, Quot.sound]
'Nonogram.Props.C137_round_trip' depends on axioms: [propext, Classical.choice, Quot.sound]
'Nonogram.Props.C137_64' depends on axioms: [Quot.sound]
