#!/usr/bin/env python3
"""Generates /verif/MANIFEST.json from the table below; ids not listed are 'partial' with no theorem yet."""
import json, os
D = "DancingLinks.Props."
S = "Sudoku.Props."
M = "Maze.Props."
N = "Nonogram.Props."
T = {
 "C01": ("proved", [S + "C01_solve_sound"], ""),
 "C02": ("proved", [S + "C02_solve_complete", S + "parse_solve"], ""),
 "C03": ("proved", [S + "C03_no_solution_truthful"], ""),
 "C04": ("proved", [S + "C04_unique", S + "C04_fixed_point"], ""),
 "C05": ("partial", [S + "C05_partial", S + "C05_false", S + "C05_use_after_free_iff", S + "C05_use_after_free_digits"], "false of the code: negation proved with a witness, together with the exact condition (C52)"),
 "C06": ("proved", [S + "C06_no_leak"], ""),
 "C07": ("proved", [S + "C07_solve_size", S + "C07_print_size"], ""),
 "C08": ("partial", [S + "C08_partial", S + "C08_false", S + "C08_ok_iff"], "false of the code: negation proved with a witness, together with the exact condition (C53)"),
 "C09": ("proved", [S + "C09_parse_ok_iff", S + "C09_parsed_ordinary"], ""),
 "C10": ("proved", [S + "C10_invalid_integer_iff", S + "C10_invalid_size_iff", S + "C10_no_other_error"], ""),
 "C11": ("proved", [S + "C11_terminates"], ""),
 "C12": ("proved", [S + "C12_print", S + "C12_empty"], "text drawing is an opaque parameter"),
 "C52": ("proved", [S + "C05_use_after_free_iff", S + "C05_use_after_free_digits"], ""),
 "C53": ("proved", [S + "C08_ok_iff"], ""),
 "C13": ("proved", [D + "C13_solve_sound"], ""),
 "C14": ("proved", [D + "C14_solve_complete"], ""),
 "C15": ("proved", [D + "C15_preselected", D + "C15_any_history"], ""),
 "C16": ("proved", [D + "C16_add_outcome", D + "C16_results", D + "C16_use_after_free"], "includes the undefined-behaviour case (finding)"),
 "C17": ("proved", [D + "C17_cover_uncover"], ""),
 "C18": ("proved", [D + "C18_failed_search_pure"], ""),
 "C19": ("proved", [D + "C19_no_leak", D + "new_ok"], ""),
 "C20": ("proved", ["DisjointSet.Props.C20_common_set_iff_linked"], ""),
 "C21": ("proved", ["DisjointSet.Props.C21_find_canonical", "DisjointSet.Props.C21_queries_pure", "DisjointSet.Props.C21_queries_pure_later"], ""),
 "C22": ("proved", ["DisjointSet.Props.C22_total_and_none_iff", "DisjointSet.Props.withSize_ok"], ""),
 "C23": ("proved", ["DisjointSet.Props.C23_union_merges", "DisjointSet.Props.C23_union_return", "DisjointSet.Props.C23_root_counts", "DisjointSet.Props.C23_depth_log", "DisjointSet.Props.size_le"], ""),
 "C24": ("proved", [M + "C24_perfect"], ""),
 "C25": ("proved", [M + "C25_outer_walls"], ""),
 "C26": ("partial", [M + "C26_partial", M + "C26_false", M + "C54_solution_iff"], "false of the code for width 1: negation proved, together with the exact condition (C54)"),
 "C27": ("proved", [M + "C27_shortest"], ""),
 "C28": ("proved", [M + "C28_exit_farthest"], ""),
 "C29": ("proved", [M + "C29_terminates", M + "C29_too_big"], ""),
 "C30": ("proved", [M + "C30_choose_random", M + "C30_every_element", M + "C30_uniform"], ""),
 "C31": ("proved", [M + "C31_print_maze", M + "C31_invalid_dimensions"], ""),
 "C32": ("proved", [M + "C32_faithful"], ""),
 "C33": ("proved", [M + "C33_no_panic", M + "C33_invalid_dimensions"], ""),
 "C34": ("partial", [M + "C34_partial", M + "C34_false", M + "C56_pipeline_always_rejected"], "false of the code: every maze is rejected (C56)"),
 "C35": ("proved", [M + "C35_paints_route"], ""),
 "C36": ("partial", [M + "C36_partial", M + "C36_false_left", M + "C36_false_end", M + "C55_acceptance"], "false of the code: witnesses, together with the exact acceptance condition (C55)"),
 "C54": ("proved", [M + "C54_solution_iff"], ""),
 "C55": ("proved", [M + "C55_acceptance"], ""),
 "C56": ("proved", [M + "C56_pipeline_always_rejected"], ""),
 "C37": ("proved", [N + "C37_round_trip"], ""),
 "C38": ("partial", [N + "C38_partial", N + "C38_false", N + "C57_wrapping", N + "C57_checked"], "false of the code when the sum wraps: negation proved, together with the exact behaviour (C57)"),
 "C39": ("partial", [N + "C39_partial", N + "C39_false", N + "C57_wrapping", N + "C57_checked"], "false of the code when the sum overflows: negation proved, together with the exact behaviour (C57)"),
 "C40": ("proved", [N + "C40_sound"], ""),
 "C41": ("proved", [N + "C41_unsolvable"], ""),
 "C42": ("proved", [N + "C42_leftmost"], ""),
 "C43": ("proved", [N + "C43_sound"], ""),
 "C44": ("proved", [N + "C44_no_solution"], ""),
 "C45": ("partial", [N + "C45_partial", N + "C45_false", N + "C59_exact"], "false of the code (empty backtracking): negation proved, together with the exact condition (C59)"),
 "C46": ("partial", [N + "C46_partial", N + "C46_false", N + "C60_least"], "false of the code (empty backtracking): negation proved, together with the exact condition (C60)"),
 "C47": ("proved", [N + "C47_terminates"], ""),
 "C48": ("partial", [N + "C48_partial", N + "C48_false", N + "C112_accepted"], "false of the code for rules that start or end with a zero: negation proved, together with the exact condition (C67, C112)"),
 "C49": ("proved", [N + "C49_fixpoint"], ""),
 "C50": ("proved", [N + "C50_invalid_dimensions", N + "C50_print"], "text drawing is an opaque parameter"),
 "C51": ("proved", [N + "C51_invalid_dimensions", N + "C51_fills"], ""),
 "C61": ("proved", [N + "C61_pipeline", N + "C61_overpaints"], ""),
 "C62": ("proved", [N + "C62_transpose"], ""),
 "C57": ("proved", [N + "C57_wrapping", N + "C57_checked"], ""),
 "C58": ("proved", [N + "C58_exact", N + "C58_empty", N + "C58_incomplete"], ""),
 "C59": ("proved", [N + "C59_exact", N + "C59_ambiguous"], ""),
 "C60": ("proved", [N + "C60_least"], ""),
 "C63": ("proved", ["DisjointSet.Props.C63_path_compression", "DisjointSet.Props.C63_second_find_short"], ""),
 "C64": ("proved", ["DisjointSet.Props.C64_union_by_size"], ""),
 "C65": ("proved", [D + "C65_algorithm_x", D + "algorithmX_eq"], ""),
 "C66": ("proved", [S + "C66_by_hand", S + "shows_unique"], ""),
 "C67": ("proved", [N + "C67_line", N + "C67_zero", N + "C67_solvable", N + "C67_column", N + "C67_accepted"], ""),
 "C68": ("proved", [N + "C68_exact", N + "C68_accepted"], ""),
 "C69": ("proved", [N + "C69_no_rows"], ""),
 "C70": ("proved", [M + "C70_depth_first", M + "C70_entrance"], ""),
 "C71": ("proved", [M + "C71_range", M + "C71_create"], ""),
 "C72": ("proved", [M + "C72_draws"], ""),
 "C73": ("proved", [M + "C73_last_route", M + "C73_unique"], ""),
 "C74": ("proved", [N + "C74_mirror", N + "C74_upside_down"], ""),
 "C75": ("proved", ["Errors.Props.C75_dancing_links", "Errors.Props.C75_maze", "Errors.Props.C75_sudoku", "Errors.Props.C75_nonogram"], ""),
 "C76": ("proved", [M + "C76_backtrack", M + "C76_search"], ""),
 "C77": ("proved", [N + "C77_passes"], ""),
 "C78": ("proved", [M + "C78_orders", M + "C78_law", M + "C78_search", M + "C78_entrance"], ""),
 "C79": ("proved", [M + "C79_transpose"], ""),
 "C80": ("proved", [D + "C80_depth", D + "C80_depth_rows", D + "C80_frames", S + "C80_sudoku", S + "C80_sudoku_least"], ""),
 "C81": ("proved", [M + "C81_returns_iff"], ""),
 "C82": ("partial", [D + "C82_new", D + "C82_drop", D + "C82_absent", D + "C82_empty", D + "C82_partial", D + "C82_false", D + "C82_add_false", D + "C82_wrong", D + "C82_endless"],
   "False of the code: a constraint that names a row twice leads solve and add_solution into freed memory, to a wrong answer and lost memory, or into endless recursion. Proved: for every list of constraints new, drop after new, add_solution of a row that does not occur and solve with an empty constraint are safe; everything is for duplicate-free constraints."),
 "C83": ("proved", [S + "C83_symmetry"], ""),
 "C84": ("proved", [M + "C84_route_counts"], ""),
 "C85": ("proved", [D + "C85_calls", D + "C85_dead_end"], ""),
 "C86": ("proved", [S + "C86_singles", S + "C86_counter"], ""),
 "C87": ("proved", [N + "C87_picture"], ""),
 "C88": ("proved", [N + "C88_overlap", N + "C88_one_way", N + "C88_one_way_iff", N + "C88_single"], ""),
 "C89": ("proved", ["DisjointSet.Props.C89_find_frames"], ""),
 "C90": ("proved", [M + "C90_route_white", M + "C90_created", M + "C90_painted"], ""),
 "C91": ("proved", ["DisjointSet.Props.C91_amortised", "DisjointSet.Props.C91_machine", "DisjointSet.Props.C91_counter"], ""),
 "C92": ("proved", [S + "C92_erase", S + "C92_enter", S + "C92_again", S + "C92_second", S + "C92_symmetric", S + "C92_digits", S + "C92_rows", S + "C92_cols"], ""),
 "C93": ("proved", [N + "C93_read", N + "C93_faithful", N + "C93_twice"], ""),
 "C94": ("proved", [S + "C94_cells", S + "C94_faithful", S + "C94_answer"], ""),
 "C95": ("proved", [N + "C95_steps", N + "C95_square"], ""),
 "C96": ("proved", [M + "C96_linear"], ""),
 "C97": ("proved", [D + "C97_upper", D + "C97_exponential", S + "C97_sudoku"], ""),
 "C98": ("proved", [D + "C98_session", D + "C98_clean", S + "C98_sudoku"], ""),
 "C99": ("proved", [D + "C99_null", S + "C99_sudoku"], ""),
 "C100": ("proved", ["Serde.Props.C100_maze", "Serde.Props.C100_node_iff", "Serde.Props.C100_dir_iff", "Serde.Props.C100_grid_iff", "Serde.Props.C100_injective"], ""),
 "C101": ("proved", ["DisjointSet.Props.C101_depth_attained"], ""),
 "C102": ("proved", [D + "C102_new", D + "C102_add", D + "C102_history", D + "C102_solve", D + "C102_drop", S + "C102_sudoku", S + "C102_singles", S + "C102_all"], ""),
 "C103": ("proved", [M + "C103_bounds", M + "C103_longest", M + "C103_shortest"], ""),
 "C104": ("proved", [M + "C104_neighbours", M + "C104_columns", M + "C104_corners"], ""),
 "C105": ("proved", [M + "C105_debug", M + "C105_release", M + "C105_same", M + "C105_small_picture", M + "C105_unfaithful"], ""),
 "C106": ("proved", [M + "C106_panics", M + "C106_pictures", M + "C106_errors", M + "C106_sharp"], ""),
 "C107": ("proved", [N + "C107_clear", N + "C107_begin", N + "C107_inside", N + "C107_covered"], ""),
 "C108": ("proved", [N + "C108_fills", N + "C108_faithful", N + "C108_errors"], ""),
 "C109": ("proved", [M + "C109_carved", M + "C109_solution"], ""),
 "C110": ("proved", [M + "C110_columns"], ""),
 "C111": ("proved", [N + "C111_debug", N + "C111_release", N + "C111_same", N + "C111_empty"], ""),
 "C112": ("proved", [N + "C112_panics", N + "C112_no_solution", N + "C112_accepted"], ""),
 "C113": ("proved", [M + "C113_create_maze", M + "C113_print_maze", M + "C113_print_maze_solution", S + "C113_print_sudoku", N + "C113_parse", N + "C113_solve", N + "C113_solve_same", N + "C113_print", N + "C113_print_solution"], ""),
 "C114": ("proved", [M + "C114_stack", M + "C114_full", M + "C114_queue"], ""),
 "C115": ("proved", [N + "C115_filled", N + "C115_no_solution", N + "C115_solved", N + "C115_solution", N + "C115_misses", N + "C115_misses_clash"], ""),
 "C116": ("proved", [N + "C116_top", N + "C116_left", N + "C116_right", N + "C116_bottom"], ""),
 "C117": ("proved", [N + "C117_line", N + "C117_wrong", N + "C117_undetected", N + "C117_two_two"], ""),
 "C118": ("proved", [N + "C118_small", N + "C118_missed", N + "C117_line"], ""),
 "C119": ("proved", [M + "C119_apart", M + "C119_number", M + "C119_one", M + "C119_all"], ""),
 "C120": ("proved", [S + "C120_sudoku", N + "C120_nonogram"], ""),
 "C121": ("proved", [M + "C121_odds", M + "C121_powers"], ""),
 "C122": ("proved", [M + "C122_count", M + "C122_uniform", M + "C122_least"], ""),
 "C123": ("proved", [M + "C123_same", M + "C123_odds", M + "C123_count"], ""),
 "C124": ("proved", [M + "C124_most", M + "C124_count"], ""),
 "C125": ("proved", [N + "C125_debug", N + "C125_release", N + "C125_lost"], ""),
 "C126": ("proved", ["Png.Props." + t for t in ("C126_bytes", "C126_faithful", "C126_maze", "C126_sudoku", "C126_nonogram")], "the PNG encoder of the image crate is a parameter"),
 "C127": ("proved", [N + "C127_needed", N + "C127_tight"], "tight up to the factor 4; the exact number of passes of the example is not proved"),
 "C128": ("proved", [D + "C128_exact", D + "C128_small", D + "C128_large", D + "C128_leak"], "C128_exact is the full answer; C128_small and C128_large are simple bounds"),
 "C129": ("proved", [N + "C129_panics", N + "C129_release", N + "C129_exact", N + "C129_wrong"], ""),
 "C130": ("proved", [D + "C130_accepted", D + "C130_answer", D + "C130_model", D + "C130_not_cover", D + "C130_not_cover_clean", D + "C130_missed", D + "C130_builds"], ""),
 "C131": ("proved", [D + "C131_builds", D + "C131_answer", D + "C131_sudoku", D + "C131_repeats"], ""),
 "C132": ("proved", [S + "C132_builds", S + "C132_total", S + "C132_complete", S + "C132_matrix"], ""),
 "C133": ("proved", [M + "C133_create_maze", M + "C133_perfect", M + "C133_returns_iff", M + "C133_64"], ""),
 "C134": ("proved", [N + "C134_solve", N + "C134_panics", N + "C134_parse", N + "C134_same", N + "C134_release", N + "C134_errors", N + "C134_accepted", N + "C134_wraps", N + "C134_huge", N + "C134_64"], ""),
 "C135": ("proved", ["PrintTarget.Props.C135_maze", "PrintTarget.Props.C135_maze_ok", "PrintTarget.Props.C135_maze_debug", "PrintTarget.Props.C135_maze_wraps", "PrintTarget.Props.C135_nonogram", "PrintTarget.Props.C135_solution", "PrintTarget.Props.C135_solution_large", "PrintTarget.Props.C135_solution_wraps", "PrintTarget.Props.C135_64"], ""),
 "C136": ("proved", ["PrintTarget.Props.C136_maze", "PrintTarget.Props.C136_nonogram"], ""),
 "C137": ("proved", ["Nonogram.Props.C137_wrapping", "Nonogram.Props.C137_checked", "Nonogram.Props.C137_builds", "Nonogram.Props.C137_large", "Nonogram.Props.C137_round_trip", "Nonogram.Props.C137_64"], ""),
}
here = os.path.dirname(os.path.abspath(__file__))
ids = [json.loads(l)["id"] for l in open(os.path.join(here, "..", "properties.jsonl"))]
claims = []
for i in ids:
    st, th, note = T.get(i, ("partial", [], "not proved yet"))
    claims.append({"property": i, "status": st, "theorems": th, "note": note})
json.dump({"claims": claims}, open(os.path.join(here, "..", "MANIFEST.json"), "w"), indent=1)
