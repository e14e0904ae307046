{
 "claims": [
  {
   "property": "C01",
   "status": "proved",
   "theorems": [
    "Sudoku.Props.C01_solve_sound"
   ],
   "note": ""
  },
  {
   "property": "C02",
   "status": "proved",
   "theorems": [
    "Sudoku.Props.C02_solve_complete",
    "Sudoku.Props.parse_solve"
   ],
   "note": ""
  },
  {
   "property": "C03",
   "status": "proved",
   "theorems": [
    "Sudoku.Props.C03_no_solution_truthful"
   ],
   "note": ""
  },
  {
   "property": "C04",
   "status": "proved",
   "theorems": [
    "Sudoku.Props.C04_unique",
    "Sudoku.Props.C04_fixed_point"
   ],
   "note": ""
  },
  {
   "property": "C05",
   "status": "partial",
   "theorems": [
    "Sudoku.Props.C05_partial",
    "Sudoku.Props.C05_false",
    "Sudoku.Props.C05_use_after_free_iff",
    "Sudoku.Props.C05_use_after_free_digits"
   ],
   "note": "false of the code: negation proved with a witness, together with the exact condition (C52)"
  },
  {
   "property": "C06",
   "status": "proved",
   "theorems": [
    "Sudoku.Props.C06_no_leak"
   ],
   "note": ""
  },
  {
   "property": "C07",
   "status": "proved",
   "theorems": [
    "Sudoku.Props.C07_solve_size",
    "Sudoku.Props.C07_print_size"
   ],
   "note": ""
  },
  {
   "property": "C08",
   "status": "partial",
   "theorems": [
    "Sudoku.Props.C08_partial",
    "Sudoku.Props.C08_false",
    "Sudoku.Props.C08_ok_iff"
   ],
   "note": "false of the code: negation proved with a witness, together with the exact condition (C53)"
  },
  {
   "property": "C09",
   "status": "proved",
   "theorems": [
    "Sudoku.Props.C09_parse_ok_iff",
    "Sudoku.Props.C09_parsed_ordinary"
   ],
   "note": ""
  },
  {
   "property": "C10",
   "status": "proved",
   "theorems": [
    "Sudoku.Props.C10_invalid_integer_iff",
    "Sudoku.Props.C10_invalid_size_iff",
    "Sudoku.Props.C10_no_other_error"
   ],
   "note": ""
  },
  {
   "property": "C11",
   "status": "proved",
   "theorems": [
    "Sudoku.Props.C11_terminates"
   ],
   "note": ""
  },
  {
   "property": "C12",
   "status": "proved",
   "theorems": [
    "Sudoku.Props.C12_print",
    "Sudoku.Props.C12_empty"
   ],
   "note": "text drawing is an opaque parameter"
  },
  {
   "property": "C13",
   "status": "proved",
   "theorems": [
    "DancingLinks.Props.C13_solve_sound"
   ],
   "note": ""
  },
  {
   "property": "C14",
   "status": "proved",
   "theorems": [
    "DancingLinks.Props.C14_solve_complete"
   ],
   "note": ""
  },
  {
   "property": "C15",
   "status": "proved",
   "theorems": [
    "DancingLinks.Props.C15_preselected",
    "DancingLinks.Props.C15_any_history"
   ],
   "note": ""
  },
  {
   "property": "C16",
   "status": "proved",
   "theorems": [
    "DancingLinks.Props.C16_add_outcome",
    "DancingLinks.Props.C16_results",
    "DancingLinks.Props.C16_use_after_free"
   ],
   "note": "includes the undefined-behaviour case (finding)"
  },
  {
   "property": "C17",
   "status": "proved",
   "theorems": [
    "DancingLinks.Props.C17_cover_uncover"
   ],
   "note": ""
  },
  {
   "property": "C18",
   "status": "proved",
   "theorems": [
    "DancingLinks.Props.C18_failed_search_pure"
   ],
   "note": ""
  },
  {
   "property": "C19",
   "status": "proved",
   "theorems": [
    "DancingLinks.Props.C19_no_leak",
    "DancingLinks.Props.new_ok"
   ],
   "note": ""
  },
  {
   "property": "C20",
   "status": "proved",
   "theorems": [
    "DisjointSet.Props.C20_common_set_iff_linked"
   ],
   "note": ""
  },
  {
   "property": "C21",
   "status": "proved",
   "theorems": [
    "DisjointSet.Props.C21_find_canonical",
    "DisjointSet.Props.C21_queries_pure",
    "DisjointSet.Props.C21_queries_pure_later"
   ],
   "note": ""
  },
  {
   "property": "C22",
   "status": "proved",
   "theorems": [
    "DisjointSet.Props.C22_total_and_none_iff",
    "DisjointSet.Props.withSize_ok"
   ],
   "note": ""
  },
  {
   "property": "C23",
   "status": "proved",
   "theorems": [
    "DisjointSet.Props.C23_union_merges",
    "DisjointSet.Props.C23_union_return",
    "DisjointSet.Props.C23_root_counts",
    "DisjointSet.Props.C23_depth_log",
    "DisjointSet.Props.size_le"
   ],
   "note": ""
  },
  {
   "property": "C24",
   "status": "proved",
   "theorems": [
    "Maze.Props.C24_perfect"
   ],
   "note": ""
  },
  {
   "property": "C25",
   "status": "proved",
   "theorems": [
    "Maze.Props.C25_outer_walls"
   ],
   "note": ""
  },
  {
   "property": "C26",
   "status": "partial",
   "theorems": [
    "Maze.Props.C26_partial",
    "Maze.Props.C26_false",
    "Maze.Props.C54_solution_iff"
   ],
   "note": "false of the code for width 1: negation proved, together with the exact condition (C54)"
  },
  {
   "property": "C27",
   "status": "proved",
   "theorems": [
    "Maze.Props.C27_shortest"
   ],
   "note": ""
  },
  {
   "property": "C28",
   "status": "proved",
   "theorems": [
    "Maze.Props.C28_exit_farthest"
   ],
   "note": ""
  },
  {
   "property": "C29",
   "status": "proved",
   "theorems": [
    "Maze.Props.C29_terminates",
    "Maze.Props.C29_too_big"
   ],
   "note": ""
  },
  {
   "property": "C30",
   "status": "proved",
   "theorems": [
    "Maze.Props.C30_choose_random",
    "Maze.Props.C30_every_element",
    "Maze.Props.C30_uniform"
   ],
   "note": ""
  },
  {
   "property": "C31",
   "status": "proved",
   "theorems": [
    "Maze.Props.C31_print_maze",
    "Maze.Props.C31_invalid_dimensions"
   ],
   "note": ""
  },
  {
   "property": "C32",
   "status": "proved",
   "theorems": [
    "Maze.Props.C32_faithful"
   ],
   "note": ""
  },
  {
   "property": "C33",
   "status": "proved",
   "theorems": [
    "Maze.Props.C33_no_panic",
    "Maze.Props.C33_invalid_dimensions"
   ],
   "note": ""
  },
  {
   "property": "C34",
   "status": "partial",
   "theorems": [
    "Maze.Props.C34_partial",
    "Maze.Props.C34_false",
    "Maze.Props.C56_pipeline_always_rejected"
   ],
   "note": "false of the code: every maze is rejected (C56)"
  },
  {
   "property": "C35",
   "status": "proved",
   "theorems": [
    "Maze.Props.C35_paints_route"
   ],
   "note": ""
  },
  {
   "property": "C36",
   "status": "partial",
   "theorems": [
    "Maze.Props.C36_partial",
    "Maze.Props.C36_false_left",
    "Maze.Props.C36_false_end",
    "Maze.Props.C55_acceptance"
   ],
   "note": "false of the code: witnesses, together with the exact acceptance condition (C55)"
  },
  {
   "property": "C37",
   "status": "proved",
   "theorems": [
    "Nonogram.Props.C37_round_trip"
   ],
   "note": ""
  },
  {
   "property": "C38",
   "status": "partial",
   "theorems": [
    "Nonogram.Props.C38_partial",
    "Nonogram.Props.C38_false",
    "Nonogram.Props.C57_wrapping",
    "Nonogram.Props.C57_checked"
   ],
   "note": "false of the code when the sum wraps: negation proved, together with the exact behaviour (C57)"
  },
  {
   "property": "C39",
   "status": "partial",
   "theorems": [
    "Nonogram.Props.C39_partial",
    "Nonogram.Props.C39_false",
    "Nonogram.Props.C57_wrapping",
    "Nonogram.Props.C57_checked"
   ],
   "note": "false of the code when the sum overflows: negation proved, together with the exact behaviour (C57)"
  },
  {
   "property": "C40",
   "status": "proved",
   "theorems": [
    "Nonogram.Props.C40_sound"
   ],
   "note": ""
  },
  {
   "property": "C41",
   "status": "proved",
   "theorems": [
    "Nonogram.Props.C41_unsolvable"
   ],
   "note": ""
  },
  {
   "property": "C42",
   "status": "proved",
   "theorems": [
    "Nonogram.Props.C42_leftmost"
   ],
   "note": ""
  },
  {
   "property": "C43",
   "status": "proved",
   "theorems": [
    "Nonogram.Props.C43_sound"
   ],
   "note": ""
  },
  {
   "property": "C44",
   "status": "proved",
   "theorems": [
    "Nonogram.Props.C44_no_solution"
   ],
   "note": ""
  },
  {
   "property": "C45",
   "status": "partial",
   "theorems": [
    "Nonogram.Props.C45_partial",
    "Nonogram.Props.C45_false",
    "Nonogram.Props.C59_exact"
   ],
   "note": "false of the code (empty backtracking): negation proved, together with the exact condition (C59)"
  },
  {
   "property": "C46",
   "status": "partial",
   "theorems": [
    "Nonogram.Props.C46_partial",
    "Nonogram.Props.C46_false",
    "Nonogram.Props.C60_least"
   ],
   "note": "false of the code (empty backtracking): negation proved, together with the exact condition (C60)"
  },
  {
   "property": "C47",
   "status": "proved",
   "theorems": [
    "Nonogram.Props.C47_terminates"
   ],
   "note": ""
  },
  {
   "property": "C48",
   "status": "partial",
   "theorems": [
    "Nonogram.Props.C48_partial",
    "Nonogram.Props.C48_false",
    "Nonogram.Props.C112_accepted"
   ],
   "note": "false of the code for rules that start or end with a zero: negation proved, together with the exact condition (C67, C112)"
  },
  {
   "property": "C49",
   "status": "proved",
   "theorems": [
    "Nonogram.Props.C49_fixpoint"
   ],
   "note": ""
  },
  {
   "property": "C50",
   "status": "proved",
   "theorems": [
    "Nonogram.Props.C50_invalid_dimensions",
    "Nonogram.Props.C50_print"
   ],
   "note": "text drawing is an opaque parameter"
  },
  {
   "property": "C51",
   "status": "proved",
   "theorems": [
    "Nonogram.Props.C51_invalid_dimensions",
    "Nonogram.Props.C51_fills"
   ],
   "note": ""
  },
  {
   "property": "C52",
   "status": "proved",
   "theorems": [
    "Sudoku.Props.C05_use_after_free_iff",
    "Sudoku.Props.C05_use_after_free_digits"
   ],
   "note": ""
  },
  {
   "property": "C53",
   "status": "proved",
   "theorems": [
    "Sudoku.Props.C08_ok_iff"
   ],
   "note": ""
  },
  {
   "property": "C54",
   "status": "proved",
   "theorems": [
    "Maze.Props.C54_solution_iff"
   ],
   "note": ""
  },
  {
   "property": "C55",
   "status": "proved",
   "theorems": [
    "Maze.Props.C55_acceptance"
   ],
   "note": ""
  },
  {
   "property": "C56",
   "status": "proved",
   "theorems": [
    "Maze.Props.C56_pipeline_always_rejected"
   ],
   "note": ""
  },
  {
   "property": "C57",
   "status": "proved",
   "theorems": [
    "Nonogram.Props.C57_wrapping",
    "Nonogram.Props.C57_checked"
   ],
   "note": ""
  },
  {
   "property": "C58",
   "status": "proved",
   "theorems": [
    "Nonogram.Props.C58_exact",
    "Nonogram.Props.C58_empty",
    "Nonogram.Props.C58_incomplete"
   ],
   "note": ""
  },
  {
   "property": "C59",
   "status": "proved",
   "theorems": [
    "Nonogram.Props.C59_exact",
    "Nonogram.Props.C59_ambiguous"
   ],
   "note": ""
  },
  {
   "property": "C60",
   "status": "proved",
   "theorems": [
    "Nonogram.Props.C60_least"
   ],
   "note": ""
  },
  {
   "property": "C61",
   "status": "proved",
   "theorems": [
    "Nonogram.Props.C61_pipeline",
    "Nonogram.Props.C61_overpaints"
   ],
   "note": ""
  },
  {
   "property": "C62",
   "status": "proved",
   "theorems": [
    "Nonogram.Props.C62_transpose"
   ],
   "note": ""
  },
  {
   "property": "C63",
   "status": "proved",
   "theorems": [
    "DisjointSet.Props.C63_path_compression",
    "DisjointSet.Props.C63_second_find_short"
   ],
   "note": ""
  },
  {
   "property": "C64",
   "status": "proved",
   "theorems": [
    "DisjointSet.Props.C64_union_by_size"
   ],
   "note": ""
  },
  {
   "property": "C65",
   "status": "proved",
   "theorems": [
    "DancingLinks.Props.C65_algorithm_x",
    "DancingLinks.Props.algorithmX_eq"
   ],
   "note": ""
  },
  {
   "property": "C66",
   "status": "proved",
   "theorems": [
    "Sudoku.Props.C66_by_hand",
    "Sudoku.Props.shows_unique"
   ],
   "note": ""
  },
  {
   "property": "C67",
   "status": "proved",
   "theorems": [
    "Nonogram.Props.C67_line",
    "Nonogram.Props.C67_zero",
    "Nonogram.Props.C67_solvable",
    "Nonogram.Props.C67_column",
    "Nonogram.Props.C67_accepted"
   ],
   "note": ""
  },
  {
   "property": "C68",
   "status": "proved",
   "theorems": [
    "Nonogram.Props.C68_exact",
    "Nonogram.Props.C68_accepted"
   ],
   "note": ""
  },
  {
   "property": "C69",
   "status": "proved",
   "theorems": [
    "Nonogram.Props.C69_no_rows"
   ],
   "note": ""
  },
  {
   "property": "C70",
   "status": "proved",
   "theorems": [
    "Maze.Props.C70_depth_first",
    "Maze.Props.C70_entrance"
   ],
   "note": ""
  },
  {
   "property": "C71",
   "status": "proved",
   "theorems": [
    "Maze.Props.C71_range",
    "Maze.Props.C71_create"
   ],
   "note": ""
  },
  {
   "property": "C72",
   "status": "proved",
   "theorems": [
    "Maze.Props.C72_draws"
   ],
   "note": ""
  },
  {
   "property": "C73",
   "status": "proved",
   "theorems": [
    "Maze.Props.C73_last_route",
    "Maze.Props.C73_unique"
   ],
   "note": ""
  },
  {
   "property": "C74",
   "status": "proved",
   "theorems": [
    "Nonogram.Props.C74_mirror",
    "Nonogram.Props.C74_upside_down"
   ],
   "note": ""
  },
  {
   "property": "C75",
   "status": "proved",
   "theorems": [
    "Errors.Props.C75_dancing_links",
    "Errors.Props.C75_maze",
    "Errors.Props.C75_sudoku",
    "Errors.Props.C75_nonogram"
   ],
   "note": ""
  },
  {
   "property": "C76",
   "status": "proved",
   "theorems": [
    "Maze.Props.C76_backtrack",
    "Maze.Props.C76_search"
   ],
   "note": ""
  },
  {
   "property": "C77",
   "status": "proved",
   "theorems": [
    "Nonogram.Props.C77_passes"
   ],
   "note": ""
  },
  {
   "property": "C78",
   "status": "proved",
   "theorems": [
    "Maze.Props.C78_orders",
    "Maze.Props.C78_law",
    "Maze.Props.C78_search",
    "Maze.Props.C78_entrance"
   ],
   "note": ""
  },
  {
   "property": "C79",
   "status": "proved",
   "theorems": [
    "Maze.Props.C79_transpose"
   ],
   "note": ""
  },
  {
   "property": "C80",
   "status": "proved",
   "theorems": [
    "DancingLinks.Props.C80_depth",
    "DancingLinks.Props.C80_depth_rows",
    "DancingLinks.Props.C80_frames",
    "Sudoku.Props.C80_sudoku",
    "Sudoku.Props.C80_sudoku_least"
   ],
   "note": ""
  },
  {
   "property": "C81",
   "status": "proved",
   "theorems": [
    "Maze.Props.C81_returns_iff"
   ],
   "note": ""
  },
  {
   "property": "C82",
   "status": "partial",
   "theorems": [
    "DancingLinks.Props.C82_new",
    "DancingLinks.Props.C82_drop",
    "DancingLinks.Props.C82_absent",
    "DancingLinks.Props.C82_empty",
    "DancingLinks.Props.C82_partial",
    "DancingLinks.Props.C82_false",
    "DancingLinks.Props.C82_add_false",
    "DancingLinks.Props.C82_wrong",
    "DancingLinks.Props.C82_endless"
   ],
   "note": "False of the code: a constraint that names a row twice leads solve and add_solution into freed memory, to a wrong answer and lost memory, or into endless recursion. Proved: for every list of constraints new, drop after new, add_solution of a row that does not occur and solve with an empty constraint are safe; everything is for duplicate-free constraints."
  },
  {
   "property": "C83",
   "status": "proved",
   "theorems": [
    "Sudoku.Props.C83_symmetry"
   ],
   "note": ""
  },
  {
   "property": "C84",
   "status": "proved",
   "theorems": [
    "Maze.Props.C84_route_counts"
   ],
   "note": ""
  },
  {
   "property": "C85",
   "status": "proved",
   "theorems": [
    "DancingLinks.Props.C85_calls",
    "DancingLinks.Props.C85_dead_end"
   ],
   "note": ""
  },
  {
   "property": "C86",
   "status": "proved",
   "theorems": [
    "Sudoku.Props.C86_singles",
    "Sudoku.Props.C86_counter"
   ],
   "note": ""
  },
  {
   "property": "C87",
   "status": "proved",
   "theorems": [
    "Nonogram.Props.C87_picture"
   ],
   "note": ""
  },
  {
   "property": "C88",
   "status": "proved",
   "theorems": [
    "Nonogram.Props.C88_overlap",
    "Nonogram.Props.C88_one_way",
    "Nonogram.Props.C88_one_way_iff",
    "Nonogram.Props.C88_single"
   ],
   "note": ""
  },
  {
   "property": "C89",
   "status": "proved",
   "theorems": [
    "DisjointSet.Props.C89_find_frames"
   ],
   "note": ""
  },
  {
   "property": "C90",
   "status": "proved",
   "theorems": [
    "Maze.Props.C90_route_white",
    "Maze.Props.C90_created",
    "Maze.Props.C90_painted"
   ],
   "note": ""
  },
  {
   "property": "C91",
   "status": "proved",
   "theorems": [
    "DisjointSet.Props.C91_amortised",
    "DisjointSet.Props.C91_machine",
    "DisjointSet.Props.C91_counter"
   ],
   "note": ""
  },
  {
   "property": "C92",
   "status": "proved",
   "theorems": [
    "Sudoku.Props.C92_erase",
    "Sudoku.Props.C92_enter",
    "Sudoku.Props.C92_again",
    "Sudoku.Props.C92_second",
    "Sudoku.Props.C92_symmetric",
    "Sudoku.Props.C92_digits",
    "Sudoku.Props.C92_rows",
    "Sudoku.Props.C92_cols"
   ],
   "note": ""
  },
  {
   "property": "C93",
   "status": "proved",
   "theorems": [
    "Nonogram.Props.C93_read",
    "Nonogram.Props.C93_faithful",
    "Nonogram.Props.C93_twice"
   ],
   "note": ""
  },
  {
   "property": "C94",
   "status": "proved",
   "theorems": [
    "Sudoku.Props.C94_cells",
    "Sudoku.Props.C94_faithful",
    "Sudoku.Props.C94_answer"
   ],
   "note": ""
  },
  {
   "property": "C95",
   "status": "proved",
   "theorems": [
    "Nonogram.Props.C95_steps",
    "Nonogram.Props.C95_square"
   ],
   "note": ""
  },
  {
   "property": "C96",
   "status": "proved",
   "theorems": [
    "Maze.Props.C96_linear"
   ],
   "note": ""
  },
  {
   "property": "C97",
   "status": "proved",
   "theorems": [
    "DancingLinks.Props.C97_upper",
    "DancingLinks.Props.C97_exponential",
    "Sudoku.Props.C97_sudoku"
   ],
   "note": ""
  },
  {
   "property": "C98",
   "status": "proved",
   "theorems": [
    "DancingLinks.Props.C98_session",
    "DancingLinks.Props.C98_clean",
    "Sudoku.Props.C98_sudoku"
   ],
   "note": ""
  },
  {
   "property": "C99",
   "status": "proved",
   "theorems": [
    "DancingLinks.Props.C99_null",
    "Sudoku.Props.C99_sudoku"
   ],
   "note": ""
  },
  {
   "property": "C100",
   "status": "proved",
   "theorems": [
    "Serde.Props.C100_maze",
    "Serde.Props.C100_node_iff",
    "Serde.Props.C100_dir_iff",
    "Serde.Props.C100_grid_iff",
    "Serde.Props.C100_injective"
   ],
   "note": ""
  },
  {
   "property": "C101",
   "status": "proved",
   "theorems": [
    "DisjointSet.Props.C101_depth_attained"
   ],
   "note": ""
  },
  {
   "property": "C102",
   "status": "proved",
   "theorems": [
    "DancingLinks.Props.C102_new",
    "DancingLinks.Props.C102_add",
    "DancingLinks.Props.C102_history",
    "DancingLinks.Props.C102_solve",
    "DancingLinks.Props.C102_drop",
    "Sudoku.Props.C102_sudoku",
    "Sudoku.Props.C102_singles",
    "Sudoku.Props.C102_all"
   ],
   "note": ""
  },
  {
   "property": "C103",
   "status": "proved",
   "theorems": [
    "Maze.Props.C103_bounds",
    "Maze.Props.C103_longest",
    "Maze.Props.C103_shortest"
   ],
   "note": ""
  },
  {
   "property": "C104",
   "status": "proved",
   "theorems": [
    "Maze.Props.C104_neighbours",
    "Maze.Props.C104_columns",
    "Maze.Props.C104_corners"
   ],
   "note": ""
  },
  {
   "property": "C105",
   "status": "proved",
   "theorems": [
    "Maze.Props.C105_debug",
    "Maze.Props.C105_release",
    "Maze.Props.C105_same",
    "Maze.Props.C105_small_picture",
    "Maze.Props.C105_unfaithful"
   ],
   "note": ""
  },
  {
   "property": "C106",
   "status": "proved",
   "theorems": [
    "Maze.Props.C106_panics",
    "Maze.Props.C106_pictures",
    "Maze.Props.C106_errors",
    "Maze.Props.C106_sharp"
   ],
   "note": ""
  },
  {
   "property": "C107",
   "status": "proved",
   "theorems": [
    "Nonogram.Props.C107_clear",
    "Nonogram.Props.C107_begin",
    "Nonogram.Props.C107_inside",
    "Nonogram.Props.C107_covered"
   ],
   "note": ""
  },
  {
   "property": "C108",
   "status": "proved",
   "theorems": [
    "Nonogram.Props.C108_fills",
    "Nonogram.Props.C108_faithful",
    "Nonogram.Props.C108_errors"
   ],
   "note": ""
  },
  {
   "property": "C109",
   "status": "proved",
   "theorems": [
    "Maze.Props.C109_carved",
    "Maze.Props.C109_solution"
   ],
   "note": ""
  },
  {
   "property": "C110",
   "status": "proved",
   "theorems": [
    "Maze.Props.C110_columns"
   ],
   "note": ""
  },
  {
   "property": "C111",
   "status": "proved",
   "theorems": [
    "Nonogram.Props.C111_debug",
    "Nonogram.Props.C111_release",
    "Nonogram.Props.C111_same",
    "Nonogram.Props.C111_empty"
   ],
   "note": ""
  },
  {
   "property": "C112",
   "status": "proved",
   "theorems": [
    "Nonogram.Props.C112_panics",
    "Nonogram.Props.C112_no_solution",
    "Nonogram.Props.C112_accepted"
   ],
   "note": ""
  },
  {
   "property": "C113",
   "status": "proved",
   "theorems": [
    "Maze.Props.C113_create_maze",
    "Maze.Props.C113_print_maze",
    "Maze.Props.C113_print_maze_solution",
    "Sudoku.Props.C113_print_sudoku",
    "Nonogram.Props.C113_parse",
    "Nonogram.Props.C113_solve",
    "Nonogram.Props.C113_solve_same",
    "Nonogram.Props.C113_print",
    "Nonogram.Props.C113_print_solution"
   ],
   "note": ""
  },
  {
   "property": "C114",
   "status": "proved",
   "theorems": [
    "Maze.Props.C114_stack",
    "Maze.Props.C114_full",
    "Maze.Props.C114_queue"
   ],
   "note": ""
  },
  {
   "property": "C115",
   "status": "proved",
   "theorems": [
    "Nonogram.Props.C115_filled",
    "Nonogram.Props.C115_no_solution",
    "Nonogram.Props.C115_solved",
    "Nonogram.Props.C115_solution",
    "Nonogram.Props.C115_misses",
    "Nonogram.Props.C115_misses_clash"
   ],
   "note": ""
  },
  {
   "property": "C116",
   "status": "proved",
   "theorems": [
    "Nonogram.Props.C116_top",
    "Nonogram.Props.C116_left",
    "Nonogram.Props.C116_right",
    "Nonogram.Props.C116_bottom"
   ],
   "note": ""
  },
  {
   "property": "C117",
   "status": "proved",
   "theorems": [
    "Nonogram.Props.C117_line",
    "Nonogram.Props.C117_wrong",
    "Nonogram.Props.C117_undetected",
    "Nonogram.Props.C117_two_two"
   ],
   "note": ""
  },
  {
   "property": "C118",
   "status": "proved",
   "theorems": [
    "Nonogram.Props.C118_small",
    "Nonogram.Props.C118_missed",
    "Nonogram.Props.C117_line"
   ],
   "note": ""
  },
  {
   "property": "C119",
   "status": "proved",
   "theorems": [
    "Maze.Props.C119_apart",
    "Maze.Props.C119_number",
    "Maze.Props.C119_one",
    "Maze.Props.C119_all"
   ],
   "note": ""
  },
  {
   "property": "C120",
   "status": "proved",
   "theorems": [
    "Sudoku.Props.C120_sudoku",
    "Nonogram.Props.C120_nonogram"
   ],
   "note": ""
  },
  {
   "property": "C121",
   "status": "proved",
   "theorems": [
    "Maze.Props.C121_odds",
    "Maze.Props.C121_powers"
   ],
   "note": ""
  },
  {
   "property": "C122",
   "status": "proved",
   "theorems": [
    "Maze.Props.C122_count",
    "Maze.Props.C122_uniform",
    "Maze.Props.C122_least"
   ],
   "note": ""
  },
  {
   "property": "C123",
   "status": "proved",
   "theorems": [
    "Maze.Props.C123_same",
    "Maze.Props.C123_odds",
    "Maze.Props.C123_count"
   ],
   "note": ""
  },
  {
   "property": "C124",
   "status": "proved",
   "theorems": [
    "Maze.Props.C124_most",
    "Maze.Props.C124_count"
   ],
   "note": ""
  },
  {
   "property": "C125",
   "status": "proved",
   "theorems": [
    "Nonogram.Props.C125_debug",
    "Nonogram.Props.C125_release",
    "Nonogram.Props.C125_lost"
   ],
   "note": ""
  },
  {
   "property": "C126",
   "status": "proved",
   "theorems": [
    "Png.Props.C126_bytes",
    "Png.Props.C126_faithful",
    "Png.Props.C126_maze",
    "Png.Props.C126_sudoku",
    "Png.Props.C126_nonogram"
   ],
   "note": "the PNG encoder of the image crate is a parameter"
  },
  {
   "property": "C127",
   "status": "proved",
   "theorems": [
    "Nonogram.Props.C127_needed",
    "Nonogram.Props.C127_tight"
   ],
   "note": "tight up to the factor 4; the exact number of passes of the example is not proved"
  },
  {
   "property": "C128",
   "status": "proved",
   "theorems": [
    "DancingLinks.Props.C128_exact",
    "DancingLinks.Props.C128_small",
    "DancingLinks.Props.C128_large",
    "DancingLinks.Props.C128_leak"
   ],
   "note": "C128_exact is the full answer; C128_small and C128_large are simple bounds"
  },
  {
   "property": "C129",
   "status": "proved",
   "theorems": [
    "Nonogram.Props.C129_panics",
    "Nonogram.Props.C129_release",
    "Nonogram.Props.C129_exact",
    "Nonogram.Props.C129_wrong"
   ],
   "note": ""
  },
  {
   "property": "C130",
   "status": "proved",
   "theorems": [
    "DancingLinks.Props.C130_accepted",
    "DancingLinks.Props.C130_answer",
    "DancingLinks.Props.C130_model",
    "DancingLinks.Props.C130_not_cover",
    "DancingLinks.Props.C130_not_cover_clean",
    "DancingLinks.Props.C130_missed",
    "DancingLinks.Props.C130_builds"
   ],
   "note": ""
  },
  {
   "property": "C131",
   "status": "proved",
   "theorems": [
    "DancingLinks.Props.C131_builds",
    "DancingLinks.Props.C131_answer",
    "DancingLinks.Props.C131_sudoku",
    "DancingLinks.Props.C131_repeats"
   ],
   "note": ""
  },
  {
   "property": "C132",
   "status": "proved",
   "theorems": [
    "Sudoku.Props.C132_builds",
    "Sudoku.Props.C132_total",
    "Sudoku.Props.C132_complete",
    "Sudoku.Props.C132_matrix"
   ],
   "note": ""
  },
  {
   "property": "C133",
   "status": "proved",
   "theorems": [
    "Maze.Props.C133_create_maze",
    "Maze.Props.C133_perfect",
    "Maze.Props.C133_returns_iff",
    "Maze.Props.C133_64"
   ],
   "note": ""
  },
  {
   "property": "C134",
   "status": "proved",
   "theorems": [
    "Nonogram.Props.C134_solve",
    "Nonogram.Props.C134_panics",
    "Nonogram.Props.C134_parse",
    "Nonogram.Props.C134_same",
    "Nonogram.Props.C134_release",
    "Nonogram.Props.C134_errors",
    "Nonogram.Props.C134_accepted",
    "Nonogram.Props.C134_wraps",
    "Nonogram.Props.C134_huge",
    "Nonogram.Props.C134_64"
   ],
   "note": ""
  },
  {
   "property": "C135",
   "status": "proved",
   "theorems": [
    "PrintTarget.Props.C135_maze",
    "PrintTarget.Props.C135_maze_ok",
    "PrintTarget.Props.C135_maze_debug",
    "PrintTarget.Props.C135_maze_wraps",
    "PrintTarget.Props.C135_nonogram",
    "PrintTarget.Props.C135_solution",
    "PrintTarget.Props.C135_solution_large",
    "PrintTarget.Props.C135_solution_wraps",
    "PrintTarget.Props.C135_64"
   ],
   "note": ""
  },
  {
   "property": "C136",
   "status": "proved",
   "theorems": [
    "PrintTarget.Props.C136_maze",
    "PrintTarget.Props.C136_nonogram"
   ],
   "note": ""
  },
  {
   "property": "C137",
   "status": "proved",
   "theorems": [
    "Nonogram.Props.C137_wrapping",
    "Nonogram.Props.C137_checked",
    "Nonogram.Props.C137_builds",
    "Nonogram.Props.C137_large",
    "Nonogram.Props.C137_round_trip",
    "Nonogram.Props.C137_64"
   ],
   "note": ""
  }
 ]
}