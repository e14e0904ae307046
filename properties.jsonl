{"id": "C01", "title": "solve_sudoku only returns correct completions", "statement": "For every 81-entry puzzle with entries 0..9, whenever solve_sudoku returns Ok(grid), grid has 81 entries in 1..9, every row, column and 3x3 box holds each of 1..9 exactly once, and grid agrees with the puzzle on every non-zero entry.", "quantifier": "all 10^81 puzzles with entries 0..9, every search path of the solver", "why_tests_cant": "There are 10^81 puzzles and the solver backtracks arbitrarily deep; tests check five.", "anchors": ["src/puzzles/sudoku/mod.rs:solve_sudoku", "src/puzzles/sudoku/mod.rs:SUDOKU_CONSTRAINTS", "src/structures/dancing_links/mod.rs:DancingMatrix::solve"]}
{"id": "C02", "title": "solve_sudoku finds a completion whenever one exists", "statement": "For every 81-entry puzzle with entries 0..9 that has at least one valid completion, solve_sudoku returns Ok.", "quantifier": "all completable puzzles", "why_tests_cant": "A pruned branch that should not have been pruned shows up only on particular puzzles; completeness is a statement about the whole search tree.", "anchors": ["src/puzzles/sudoku/mod.rs:solve_sudoku", "src/structures/dancing_links/mod.rs:DancingMatrix::solve_helper"]}
{"id": "C03", "title": "solve_sudoku's NoSolution is truthful", "statement": "For every 81-entry puzzle with entries 0..9, if solve_sudoku returns Err(NoSolution) then no valid completion of the puzzle exists.", "quantifier": "all puzzles with entries 0..9", "why_tests_cant": "Non-existence of a completion cannot be observed by running the solver.", "anchors": ["src/puzzles/sudoku/mod.rs:solve_sudoku", "src/structures/dancing_links/mod.rs:DancingMatrix::add_solution"]}
{"id": "C04", "title": "Uniquely solvable puzzles return their solution; solved grids are fixed points", "statement": "If a puzzle with entries 0..9 has exactly one completion, solve_sudoku returns exactly it; in particular a complete valid grid is returned unchanged.", "quantifier": "all uniquely completable puzzles, all valid grids", "why_tests_cant": "There are 6.7e21 valid grids.", "anchors": ["src/puzzles/sudoku/mod.rs:solve_sudoku"]}
{"id": "C05", "title": "solve_sudoku never touches freed memory", "statement": "For every slice of bytes, solve_sudoku performs no read, write or dealloc of a node that has already been freed. (False of the code: exact characterisation of the inputs that trigger the use-after-free.)", "quantifier": "all puzzles; all orders in which givens conflict", "why_tests_cant": "Use-after-free is undefined behaviour: a test may pass although memory was touched after free; it needs particular conflicting givens.", "anchors": ["src/structures/dancing_links/mod.rs:DancingMatrix::add_solution", "src/structures/dancing_links/node.rs:Node::free_chain", "src/puzzles/sudoku/mod.rs:solve_sudoku"]}
{"id": "C06", "title": "solve_sudoku frees every node exactly once", "statement": "On every input that does not trigger the use-after-free, when solve_sudoku returns (Ok or Err) every matrix node it allocated has been deallocated exactly once.", "quantifier": "all inputs and all exits (success, no solution, rejected given)", "why_tests_cant": "Leaks and double frees depend on the search path; Miri runs only the handful of test puzzles.", "anchors": ["src/structures/dancing_links/mod.rs:DancingMatrix::solve_helper", "src/structures/dancing_links/mod.rs:Drop", "src/structures/dancing_links/node.rs:Node::free_chain"]}
{"id": "C07", "title": "Puzzles of the wrong size are rejected", "statement": "solve_sudoku and print_sudoku return Err(InvalidSize(n)) exactly when the slice has n != 81 entries, and n is the slice length.", "quantifier": "all slices of every length", "why_tests_cant": "Every length must be covered.", "anchors": ["src/puzzles/sudoku/mod.rs:solve_sudoku", "src/puzzles/sudoku/mod.rs:print_sudoku"]}
{"id": "C08", "title": "Entries above 9 are rejected or respected by solve_sudoku", "statement": "If a puzzle contains an entry above 9, solve_sudoku never returns Ok with a grid (there is no grid agreeing with the givens). (False of the code: an entry above 9 is silently read as a clue for another cell or dropped.)", "quantifier": "all byte slices of length 81 containing an entry >= 10", "why_tests_cant": "Tests only use entries 0..9.", "anchors": ["src/puzzles/sudoku/mod.rs:solve_sudoku", "src/structures/dancing_links/mod.rs:DancingMatrix::add_solution"]}
{"id": "C09", "title": "parse_sudoku accepts exactly the 81-digit strings", "statement": "parse_sudoku(s) returns Ok(v) exactly when s consists of 81 ASCII digits, and then v lists the digit values in order (so v has length 81 and entries 0..9).", "quantifier": "all strings", "why_tests_cant": "Infinite input space.", "anchors": ["src/puzzles/sudoku/mod.rs:parse_sudoku"]}
{"id": "C10", "title": "parse_sudoku reports the first offending character, before any size complaint", "statement": "If s has a character that is not an ASCII digit, the result is Err(InvalidInteger(c)) with c the first such character, whatever the length of s; otherwise, if the length is not 81 the result is Err(InvalidSize(length)).", "quantifier": "all strings", "why_tests_cant": "Error precedence must hold for every string.", "anchors": ["src/puzzles/sudoku/mod.rs:parse_sudoku"]}
{"id": "C11", "title": "solve_sudoku terminates", "statement": "solve_sudoku returns on every input (it neither loops forever nor panics), for every byte slice that does not trigger the use-after-free.", "quantifier": "all byte slices", "why_tests_cant": "Termination of an unbounded backtracking search over pointer rings cannot be tested.", "anchors": ["src/structures/dancing_links/mod.rs:DancingMatrix::solve_helper", "src/structures/dancing_links/node.rs:node_iterator"]}
{"id": "C12", "title": "print_sudoku draws exactly the grid", "statement": "For every 81-entry puzzle print_sudoku does not panic and yields a 900x900 image; apart from text drawing the black pixels are exactly the lines at multiples of 100 and the thickening lines next to 300 and 600; each non-zero entry i is drawn as text once at (100*(i mod 9)+25, 100*(i/9)+5).", "quantifier": "all puzzles, all pixels", "why_tests_cant": "810000 pixels for all puzzles; index arithmetic must never leave the image.", "anchors": ["src/puzzles/sudoku/mod.rs:print_sudoku"]}
{"id": "C13", "title": "Exact cover: solve is sound", "statement": "For every list of constraints (each a list of distinct row indices), if DancingMatrix::solve returns Ok(rows) then the returned rows are distinct and every constraint contains exactly one of them.", "quantifier": "all constraint matrices of any size", "why_tests_cant": "Matrices are unbounded; each backtrack must restore the structure perfectly.", "anchors": ["src/structures/dancing_links/mod.rs:DancingMatrix::new", "src/structures/dancing_links/mod.rs:DancingMatrix::solve"]}
{"id": "C14", "title": "Exact cover: solve is complete", "statement": "For every list of constraints, if some set of rows covers every constraint exactly once then DancingMatrix::solve returns Ok; Err(NoSolution) is returned only if there is none.", "quantifier": "all constraint matrices", "why_tests_cant": "Statement over the entire search tree.", "anchors": ["src/structures/dancing_links/mod.rs:DancingMatrix::solve_helper"]}
{"id": "C15", "title": "Preselected rows are honoured", "statement": "After a sequence of successful add_solution calls, solve returns Ok exactly when the preselected rows extend to an exact cover, and the returned list starts with the preselected rows in order.", "quantifier": "all matrices, all sequences of add_solution calls that return Ok", "why_tests_cant": "Unbounded histories.", "anchors": ["src/structures/dancing_links/mod.rs:DancingMatrix::add_solution", "src/structures/dancing_links/mod.rs:DancingMatrix::solve"]}
{"id": "C16", "title": "add_solution's outcome is exactly determined by the history", "statement": "After any successful history, add_solution(r) returns IndexError exactly if r is beyond the largest row index; InvalidRow exactly if r occurs in no constraint or was knocked out by an earlier row sharing the constraint of that earlier row's last entry; Ok exactly if r conflicts with no earlier row; in all remaining cases it dereferences freed memory.", "quantifier": "all matrices and call histories", "why_tests_cant": "The failing case is undefined behaviour and depends on history.", "anchors": ["src/structures/dancing_links/mod.rs:DancingMatrix::add_solution"]}
{"id": "C17", "title": "Covering then uncovering a column restores memory exactly", "statement": "For every reachable matrix and every active column, cover_column followed by uncover_column leaves every node (all five links and the count) identical.", "quantifier": "all reachable heaps, all columns", "why_tests_cant": "Requires comparing whole memories for all matrices.", "anchors": ["src/structures/dancing_links/node.rs:Node::cover_column", "src/structures/dancing_links/node.rs:Node::uncover_column"]}
{"id": "C18", "title": "A failed search leaves memory untouched", "statement": "Whenever solve_helper returns false, heap and partial solution are identical to what they were on entry; its size counters never underflow.", "quantifier": "all reachable matrices", "why_tests_cant": "Needs an invariant over the full recursion.", "anchors": ["src/structures/dancing_links/mod.rs:DancingMatrix::solve_helper"]}
{"id": "C19", "title": "DancingMatrix never leaks or double frees", "statement": "For every matrix and every sequence of successful add_solution calls followed by solve or by drop, all allocated nodes are freed exactly once and no freed node is accessed.", "quantifier": "all matrices, all successful histories, both exits", "why_tests_cant": "Depends on search path; UB not observable by tests.", "anchors": ["src/structures/dancing_links/mod.rs:Drop", "src/structures/dancing_links/node.rs:Node::free_chain", "src/structures/dancing_links/mod.rs:DancingMatrix::solve_helper"]}
{"id": "C20", "title": "common_set answers connectivity", "statement": "After any sequence of add/union/find/common_set calls, common_set(a,b) returns Some(true) exactly if a and b are linked by a chain of earlier successful unions, Some(false) if both are in range but not linked.", "quantifier": "all operation histories of any length", "why_tests_cant": "Unbounded histories with path compression in between.", "anchors": ["src/structures/disjoint_set.rs:DisjointSet::common_set", "src/structures/disjoint_set.rs:DisjointSet::union"]}
{"id": "C21", "title": "find is a canonical representative and is observationally pure", "statement": "find(a) returns Some(r) with r in the set of a, the same r for every member of the set; find and common_set never change the answer of any later query.", "quantifier": "all histories", "why_tests_cant": "Path compression mutates on reads.", "anchors": ["src/structures/disjoint_set.rs:DisjointSet::find", "src/structures/disjoint_set.rs:DisjointSet::find_helper"]}
{"id": "C22", "title": "Out-of-range indices give None and nothing panics or loops", "statement": "Every DisjointSet operation terminates without panic on every history; find/common_set/union return None exactly if an index is out of range.", "quantifier": "all histories, all indices", "why_tests_cant": "find_helper recurses through parent pointers: termination needs an acyclicity invariant.", "anchors": ["src/structures/disjoint_set.rs:DisjointSet"]}
{"id": "C23", "title": "union merges exactly two sets, keeps sizes right and trees shallow", "statement": "union(a,b) makes exactly the sets of a and b one set; the count at each root is the number of elements of its set; every parent chain has length at most log2 of the size of its set.", "quantifier": "all histories", "why_tests_cant": "Balance bounds hold over all histories or not at all.", "anchors": ["src/structures/disjoint_set.rs:DisjointSet::union"]}
{"id": "C24", "title": "create_maze makes a perfect maze", "statement": "For all width, height >= 1 within the allocation limit (width*height*24 < 2^63 bytes; this limit applies to every create_maze property below) and every outcome of the random draws, the passages of the returned grid form a tree on the width*height cells: every cell is reachable from every other by exactly one simple route.", "quantifier": "all positive dimensions with width*height*24 < 2^63, all random outcomes", "why_tests_cant": "Exponentially many random outcomes per size, unboundedly many sizes.", "anchors": ["src/puzzles/maze/recursive_backtrack.rs:recursive_backtrack", "src/puzzles/maze/recursive_backtrack.rs:visit_next", "src/puzzles/maze/mod.rs:create_maze"]}
{"id": "C25", "title": "create_maze's outer walls are intact but for one exit", "statement": "The returned grid has width*height cells, every rightmost cell has its right wall, and exactly one bottom-row cell has no bottom wall.", "quantifier": "all positive dimensions with width*height*24 < 2^63, all random outcomes", "why_tests_cant": "Same.", "anchors": ["src/puzzles/maze/mod.rs:create_maze", "src/puzzles/maze/recursive_backtrack.rs:visit_next"]}
{"id": "C26", "title": "create_maze's solution leads from the start to the exit", "statement": "Reading the returned directions from last to first and walking from the top-left cell crosses no wall, never leaves the grid and ends in the bottom-row cell whose bottom wall was opened. (False for width 1: directions are wrong for every height >= 2.)", "quantifier": "all positive dimensions with width*height*24 < 2^63, all random outcomes", "why_tests_cant": "Same; width 1 is not tested.", "anchors": ["src/puzzles/maze/mod.rs:create_maze"]}
{"id": "C27", "title": "create_maze's solution is the shortest route", "statement": "For width >= 2 the solution visits no cell twice and its length is the distance between start and exit in the maze.", "quantifier": "all positive dimensions with width*height*24 < 2^63, all random outcomes", "why_tests_cant": "Optimality over all routes.", "anchors": ["src/puzzles/maze/mod.rs:create_maze"]}
{"id": "C28", "title": "The exit is a farthest bottom cell", "statement": "No bottom-row cell is farther from the start than the exit.", "quantifier": "all positive dimensions with width*height*24 < 2^63, all random outcomes, all bottom cells", "why_tests_cant": "Same.", "anchors": ["src/puzzles/maze/mod.rs:create_maze"]}
{"id": "C29", "title": "create_maze terminates without panicking for positive dimensions", "statement": "For all width, height >= 1 (within allocation limits) and all random outcomes create_maze returns; with width or height 0 it panics.", "quantifier": "all positive dimensions with width*height*24 < 2^63, all random outcomes", "why_tests_cant": "Termination for every random outcome.", "anchors": ["src/puzzles/maze/mod.rs:create_maze", "src/puzzles/maze/recursive_backtrack.rs:recursive_backtrack"]}
{"id": "C30", "title": "choose_random removes exactly one element", "statement": "For every vector and every draw, choose_random returns None exactly on the empty vector, otherwise it returns an element and the vector afterwards is a permutation of the original without that one occurrence; every element can be the one chosen.", "quantifier": "all vectors, all draws", "why_tests_cant": "All draws.", "anchors": ["src/util.rs:choose_random"]}
{"id": "C31", "title": "print_maze draws exactly the walls", "statement": "For every grid of width*height cells whose picture has u32 dimensions and fits in memory print_maze returns a (10*width+1)x(10*height+1) image whose black pixels are exactly the left border, the top border from column 10 on, and the present right and bottom walls; all others are white. It returns InvalidDimensions exactly if the cell count differs from width*height.", "quantifier": "all dimensions, grids and pixels", "why_tests_cant": "All pixels of all grids.", "anchors": ["src/puzzles/maze/mod.rs:print_maze"]}
{"id": "C32", "title": "print_maze is faithful", "statement": "Two grids of the same dimensions give the same image only if they are the same grid.", "quantifier": "all pairs of grids", "why_tests_cant": "Pairs of unbounded grids.", "anchors": ["src/puzzles/maze/mod.rs:print_maze"]}
{"id": "C33", "title": "print_maze_solution never panics", "statement": "For every image (dimensions at least 11 below 2^32) and every list of directions print_maze_solution returns Ok or Err without panicking or writing outside the image.", "quantifier": "all images with sides at least 11 below 2^32, all direction lists", "why_tests_cant": "Unbounded direction lists with u32 subtraction.", "anchors": ["src/puzzles/maze/mod.rs:print_maze_solution"]}
{"id": "C34", "title": "print_maze_solution accepts create_maze's own solutions", "statement": "For every maze produced by create_maze, print_maze_solution(print_maze(maze), solution) returns Ok. (False of the code: it returns Err(InvalidSolution) for every maze.)", "quantifier": "all positive dimensions with width*height*24 < 2^63, all random outcomes", "why_tests_cant": "No test calls print_maze_solution.", "anchors": ["src/puzzles/maze/mod.rs:print_maze_solution", "src/puzzles/maze/mod.rs:print_maze", "src/puzzles/maze/mod.rs:create_maze"]}
{"id": "C35", "title": "print_maze_solution paints exactly the route", "statement": "When it returns Ok, the image has the same size, the pixels on the centre line of the walked route (entry stub, one 11-pixel segment per step, exit stub) are red and every other pixel is unchanged.", "quantifier": "all images with sides at least 11 below 2^32, all direction lists, all pixels", "why_tests_cant": "All pixels.", "anchors": ["src/puzzles/maze/mod.rs:print_maze_solution"]}
{"id": "C36", "title": "print_maze_solution rejects exactly the routes that leave the image", "statement": "It returns Err(InvalidSolution) exactly if the route leaves the area of the image. (False of the code: steps back into column 0 or row 0 and routes ending in the last row are rejected as well; exact acceptance condition.)", "quantifier": "all images with sides at least 11 below 2^32, all direction lists", "why_tests_cant": "Boundary conditions for all positions.", "anchors": ["src/puzzles/maze/mod.rs:print_maze_solution"]}
{"id": "C37", "title": "parse_nonogram_rules round-trips", "statement": "Writing any non-empty list of non-empty rules of usize numbers as decimal text joined by ',' and ';' and parsing it (with a bound every rule fits) gives the list back.", "quantifier": "all rule lists", "why_tests_cant": "Infinite input space.", "anchors": ["src/puzzles/nonogram/mod.rs:parse_nonogram_rules"]}
{"id": "C38", "title": "parse_nonogram_rules only accepts rules that fit the bound", "statement": "If the result is Ok, there is one rule per ';'-separated part, one number per ','-separated field, and in each rule the numbers plus the separating gaps do not exceed the bound. (With overflow checks off the sum wraps and the bound can be evaded; with checks on it panics.)", "quantifier": "all strings and bounds, both overflow modes", "why_tests_cant": "Needs numbers near 2^64.", "anchors": ["src/puzzles/nonogram/mod.rs:parse_nonogram_rules"]}
{"id": "C39", "title": "parse_nonogram_rules reports the first error", "statement": "A field that is not a usize literal gives InvalidRule with that field; a rule that is too long gives InvalidRuleDimension; the error reported is that of the first offending rule; no other error occurs.", "quantifier": "all strings and bounds", "why_tests_cant": "Error precedence for every string.", "anchors": ["src/puzzles/nonogram/mod.rs:parse_nonogram_rules"]}
{"id": "C40", "title": "Line deduction is sound", "statement": "For every line state and every rule that neither starts nor ends with a zero, each square set by one line step has that value in every completion of the line that satisfies the rule; squares already known are never changed.", "quantifier": "all lines of fewer than 2^57 squares and rules in which the line is shorter than 2^31 or the rule has fewer than 2^30 numbers, all rules that neither start nor end with a zero and whose state machine fits in memory, all completions", "why_tests_cant": "Exponentially many completions.", "anchors": ["src/puzzles/nonogram/right_left.rs:RuleMachine::right_left", "src/puzzles/nonogram/right_left.rs:find_left"]}
{"id": "C41", "title": "A line is reported unsolvable exactly when it is", "statement": "For every rule that neither starts nor ends with a zero and every line state, the line step fails with NoSolution exactly if no completion of the line satisfies the rule.", "quantifier": "all lines of fewer than 2^57 squares and rules in which the line is shorter than 2^31 or the rule has fewer than 2^30 numbers, all rules that neither start nor end with a zero and whose state machine fits in memory", "why_tests_cant": "Non-existence.", "anchors": ["src/puzzles/nonogram/right_left.rs:find_left"]}
{"id": "C42", "title": "find_left yields the leftmost arrangement", "statement": "For a rule that neither starts nor ends with a zero, find_left returns an arrangement that satisfies rule and known squares in which every block is at least as far left as in any other such arrangement.", "quantifier": "all lines, all rules that neither start nor end with a zero and whose state machine fits in memory, all arrangements", "why_tests_cant": "Optimality over exponentially many arrangements.", "anchors": ["src/puzzles/nonogram/right_left.rs:find_left"]}
{"id": "C43", "title": "solve_nonogram never contradicts a solution", "statement": "For all rules that neither start nor end with a zero, when solve_nonogram returns Ok(grid), every cell marked true is filled in every solution of the puzzle.", "quantifier": "all puzzles in which no rule starts or ends with a zero, with at least one row, fewer than 2^63 squares, sides below 2^57, lines shorter than 2^31 or with rules of fewer than 2^30 numbers, and rules whose state machine fits in memory (24*(sum of (entry+1) + 3) < 2^63), all solutions", "why_tests_cant": "All solutions.", "anchors": ["src/puzzles/nonogram/mod.rs:solve_nonogram", "src/puzzles/nonogram/mod.rs:right_left"]}
{"id": "C44", "title": "solve_nonogram's NoSolution is truthful", "statement": "For all rules that neither start nor end with a zero, if solve_nonogram returns Err(NoSolution), no grid satisfies all rules; no other error is returned.", "quantifier": "all puzzles in which no rule starts or ends with a zero, with at least one row, fewer than 2^63 squares, sides below 2^57, lines shorter than 2^31 or with rules of fewer than 2^30 numbers, and rules whose state machine fits in memory (24*(sum of (entry+1) + 3) < 2^63)", "why_tests_cant": "Non-existence.", "anchors": ["src/puzzles/nonogram/mod.rs:solve_nonogram"]}
{"id": "C45", "title": "solve_nonogram returns solutions", "statement": "When solve_nonogram returns Ok(grid), grid satisfies every row and column rule. (False of the code: the backtracking phase is an empty stub; holds exactly when propagation decides every square, and then the solution is unique.)", "quantifier": "all puzzles", "why_tests_cant": "Only line-solvable puzzles are tested.", "anchors": ["src/puzzles/nonogram/mod.rs:solve_nonogram", "src/puzzles/nonogram/mod.rs:recursive_backtrack"]}
{"id": "C46", "title": "solve_nonogram detects unsolvable puzzles", "statement": "If no grid satisfies the rules, solve_nonogram returns Err(NoSolution). (False of the code; counterexample.)", "quantifier": "all puzzles", "why_tests_cant": "Non-existence.", "anchors": ["src/puzzles/nonogram/mod.rs:solve_nonogram"]}
{"id": "C47", "title": "solve_nonogram terminates without panicking and returns width*height cells", "statement": "For every list of column and row rules none of which starts or ends with a zero, with at least one row, solve_nonogram terminates, does not panic, and an Ok result has exactly width*height cells.", "quantifier": "all puzzles in which no rule starts or ends with a zero, with at least one row, fewer than 2^63 squares, sides below 2^57, lines shorter than 2^31 or with rules of fewer than 2^30 numbers, and rules whose state machine fits in memory (24*(sum of (entry+1) + 3) < 2^63)", "why_tests_cant": "Fixpoint loop; termination for all inputs.", "anchors": ["src/puzzles/nonogram/mod.rs:solve_nonogram", "src/puzzles/nonogram/mod.rs:right_left"]}
{"id": "C48", "title": "Accepted rules can be solved without a crash", "statement": "solve_nonogram does not panic on rules accepted by parse_nonogram_rules. (False of the code: a rule starting with 0, such as the usual notation for an empty line, reaches unreachable!().)", "quantifier": "all parsed rule lists", "why_tests_cant": "Zero rules are not tested.", "anchors": ["src/puzzles/nonogram/mod.rs:parse_nonogram_rules", "src/puzzles/nonogram/right_left.rs:RuleMachine::new", "src/puzzles/nonogram/right_left.rs:find_left"]}
{"id": "C49", "title": "Propagation reaches a fixpoint", "statement": "When propagation returns, running any row or column step again changes nothing, and every line still has a completion.", "quantifier": "all puzzles in which no rule starts or ends with a zero, with at least one row, fewer than 2^63 squares, sides below 2^57, lines shorter than 2^31 or with rules of fewer than 2^30 numbers, and rules whose state machine fits in memory (24*(sum of (entry+1) + 3) < 2^63), from every grid of the right size", "why_tests_cant": "All puzzles.", "anchors": ["src/puzzles/nonogram/mod.rs:right_left"]}
{"id": "C50", "title": "print_nonogram draws the grid", "statement": "print_nonogram returns InvalidDimensions exactly if the rule counts differ from width/height; otherwise the image has size (50*width+max(150,10*width)) x (50*height+max(150,10*height)) and every grid-line pixel is gray; nothing panics for in-range dimensions.", "quantifier": "all rules and pixels, all dimensions with image sides below 2^31 and buffer below 2^63 bytes, column rules of fewer than 2^31/30 numbers, every text-drawing function", "why_tests_cant": "All pixels.", "anchors": ["src/puzzles/nonogram/mod.rs:print_nonogram"]}
{"id": "C51", "title": "print_nonogram_solution fills exactly the true cells", "statement": "It returns InvalidDimensions exactly if the cell count or the image size does not match; otherwise exactly the 49x49 interiors of cells marked true become black and all other pixels are unchanged.", "quantifier": "all images, grids and pixels, all dimensions with image sides below 2^31 and fewer than 2^32 squares", "why_tests_cant": "All pixels.", "anchors": ["src/puzzles/nonogram/mod.rs:print_nonogram_solution"]}
{"id": "C52", "title": "solve_sudoku's memory error happens exactly on one describable class of inputs", "statement": "solve_sudoku dereferences a freed node exactly when the slice has 81 entries, some clue excludes an earlier one, and for the first such clue x the earliest clue it excludes is not the same digit in the same box. For entries 0..9: the first cell j whose digit repeats an earlier one of its row, column or box, with the earliest such cell i not in j's box.", "quantifier": "all byte slices", "why_tests_cant": "The condition depends on the order of all givens; undefined behaviour need not show up in a run.", "anchors": ["src/puzzles/sudoku/mod.rs:solve_sudoku", "src/structures/dancing_links/mod.rs:DancingMatrix::add_solution"]}
{"id": "C53", "title": "What solve_sudoku makes of entries above 9", "statement": "An entry v at index i is read as the clue number 9*i+v-1 (cell (9i+v-1)/9, digit (9i+v-1)%9+1), and ignored if that is 729 or more. A grid is returned exactly when the clues so obtained do not exclude each other and some finished grid meets them, and the returned grid is such a grid.", "quantifier": "all byte slices", "why_tests_cant": "256^81 inputs.", "anchors": ["src/puzzles/sudoku/mod.rs:solve_sudoku"]}
{"id": "C54", "title": "When create_maze's directions are usable", "statement": "The returned directions lead from the start to the exit exactly if width >= 2 or height = 1; for width 1 they are height-1 times Right.", "quantifier": "all positive dimensions with width*height*24 < 2^63, all random outcomes", "why_tests_cant": "All dimensions and draws.", "anchors": ["src/puzzles/maze/mod.rs:create_maze"]}
{"id": "C55", "title": "What print_maze_solution accepts", "statement": "On an image of at least 6x6 pixels the result is Ok exactly if every pixel of the route lies in the image, no step goes left out of column 1 or up out of row 1, and the image continues at least 16 rows below the top of the last cell; otherwise it is Err(InvalidSolution).", "quantifier": "all images with sides at least 11 below 2^32, all direction lists", "why_tests_cant": "All images and routes.", "anchors": ["src/puzzles/maze/mod.rs:print_maze_solution"]}
{"id": "C56", "title": "The create/print/solve pipeline is always rejected", "statement": "For all positive dimensions and all random draws, create_maze followed by print_maze followed by print_maze_solution with the maze's own solution returns Err(InvalidSolution).", "quantifier": "all positive dimensions whose picture has sides at most 2^32-16 and fits in memory, all random outcomes", "why_tests_cant": "A single failing run would not show that no run succeeds.", "anchors": ["src/puzzles/maze/mod.rs:create_maze", "src/puzzles/maze/mod.rs:print_maze", "src/puzzles/maze/mod.rs:print_maze_solution"]}
{"id": "C57", "title": "What parse_nonogram_rules accepts, exactly", "statement": "Without overflow checks the result is that of the stated grammar with each rule's length (entries plus gaps) reduced modulo 2^64; with overflow checks it is that of the grammar with true lengths, or a panic exactly if the sum of a rule before the first error overflows.", "quantifier": "all strings, bounds and build modes", "why_tests_cant": "Infinite input space.", "anchors": ["src/puzzles/nonogram/mod.rs:parse_nonogram_rules"]}
{"id": "C58", "title": "What one line step deduces, exactly", "statement": "For a solvable line the step decides exactly the blank squares that lie in the same block, or in the gap between the same blocks, in every completion; this is less than all that the line determines (witness: rule 1,1 on ? ? # ? ?). On an empty line it decides exactly the squares that have the same value in all fillings.", "quantifier": "all lines of fewer than 2^57 squares and rules in which the line is shorter than 2^31 or the rule has fewer than 2^30 numbers, all rules that neither start nor end with a zero and whose state machine fits in memory", "why_tests_cant": "All lines and rules.", "anchors": ["src/puzzles/nonogram/right_left.rs:RuleMachine::right_left", "src/puzzles/nonogram/right_left.rs:find_left"]}
{"id": "C59", "title": "When solve_nonogram's result is a solution", "statement": "If solve_nonogram returns Ok(grid), grid is a solution exactly if propagation decided every square; it is then the only solution. In particular a puzzle with two solutions is never answered with a solution.", "quantifier": "all puzzles in which no rule starts or ends with a zero, with at least one row, fewer than 2^63 squares, sides below 2^57, lines shorter than 2^31 or with rules of fewer than 2^30 numbers, and rules whose state machine fits in memory (24*(sum of (entry+1) + 3) < 2^63)", "why_tests_cant": "All puzzles and all their solutions.", "anchors": ["src/puzzles/nonogram/mod.rs:solve_nonogram", "src/puzzles/nonogram/mod.rs:recursive_backtrack"]}
{"id": "C60", "title": "Propagation computes the least stable grid", "statement": "solve_nonogram reports NoSolution exactly if no grid is stable under the line steps, and otherwise returns the filled squares of the least stable grid; so the result does not depend on the order in which lines are visited.", "quantifier": "all puzzles in which no rule starts or ends with a zero, with at least one row, fewer than 2^63 squares, sides below 2^57, lines shorter than 2^31 or with rules of fewer than 2^30 numbers, and rules whose state machine fits in memory (24*(sum of (entry+1) + 3) < 2^63)", "why_tests_cant": "All visiting orders.", "anchors": ["src/puzzles/nonogram/mod.rs:solve_nonogram", "src/puzzles/nonogram/mod.rs:right_left"]}
{"id": "C61", "title": "Solving and printing fit together", "statement": "If solve_nonogram returns Ok(grid), print_nonogram and print_nonogram_solution succeed, and a pixel of the interior of a square is black in the final image if the square is marked true, and as in the printed puzzle otherwise. (The filled squares overpaint the thick grid lines.)", "quantifier": "all puzzles in the size ranges of the properties above, all pixels, every text-drawing function", "why_tests_cant": "All puzzles and pixels.", "anchors": ["src/puzzles/nonogram/mod.rs:solve_nonogram", "src/puzzles/nonogram/mod.rs:print_nonogram", "src/puzzles/nonogram/mod.rs:print_nonogram_solution"]}
{"id": "C62", "title": "Rows and columns are treated alike", "statement": "solve_nonogram with rows and columns exchanged returns the transposed grid, or NoSolution exactly if the original does.", "quantifier": "all puzzles in which no rule starts or ends with a zero, with at least one row, fewer than 2^63 squares, sides below 2^57, lines shorter than 2^31 or with rules of fewer than 2^30 numbers, and rules whose state machine fits in memory (24*(sum of (entry+1) + 3) < 2^63), and at least one column", "why_tests_cant": "Relates two runs on all puzzles.", "anchors": ["src/puzzles/nonogram/mod.rs:solve_nonogram", "src/puzzles/nonogram/mod.rs:right_left"]}
{"id": "C63", "title": "find compresses paths", "statement": "After find(a), every non-root element of the parent chain of a points directly at the root; every other element is unchanged. So immediately afterwards the chain from a has at most one link.", "quantifier": "all sizes, all sequences of operations, all elements", "why_tests_cant": "Results of queries are the same without compression, so only the state shows it.", "anchors": ["src/structures/disjoint_set.rs:DisjointSet::find", "src/structures/disjoint_set.rs:DisjointSet::find_helper"]}
{"id": "C64", "title": "union links the smaller set under the larger", "statement": "A union of two different sets makes the root of the larger set the root of both, and returns the other root; on equal sizes the root of the first argument stays.", "quantifier": "all sizes, all sequences of operations, all pairs of elements in different sets", "why_tests_cant": "All histories.", "anchors": ["src/structures/disjoint_set.rs:DisjointSet::union"]}
{"id": "C65", "title": "solve is Algorithm X with the fewest-rows heuristic", "statement": "After any sequence of add_solution calls, solve returns exactly what the textbook recursion on plain lists returns on the remaining matrix: take the first column with the fewest rows, try its rows in order, drop the columns met and the rows in conflict, and return the first success.", "quantifier": "all matrices without repeated rows in a column, all sequences of add_solution calls", "why_tests_cant": "Exact output, including which of several covers is found, for all matrices.", "anchors": ["src/structures/dancing_links/mod.rs:DancingMatrix::solve", "src/structures/dancing_links/mod.rs:solve_helper", "src/structures/dancing_links/mod.rs:choose_column"]}
{"id": "C66", "title": "solve_sudoku solves as by hand, and which completion it returns", "statement": "On 81 entries whose clues do not exclude each other, solve_sudoku returns the grid that is found by always answering the first of the open questions (digit of a cell; place of a digit in a row, column or box) with the fewest possible answers, trying the answers in order; NoSolution exactly if that finds none.", "quantifier": "all byte slices of 81 entries whose clues do not exclude each other", "why_tests_cant": "Exact output also for puzzles with several completions.", "anchors": ["src/puzzles/sudoku/mod.rs:solve_sudoku", "src/puzzles/sudoku/mod.rs:SUDOKU_CONSTRAINTS", "src/structures/dancing_links/mod.rs:DancingMatrix::solve"]}
{"id": "C67", "title": "Rules that start or end with a zero are never solved", "statement": "With a rule that starts with a zero a line step always panics; with one that ends with a zero it panics exactly if the line has a completion. A puzzle with such a rule never gets a grid: solve_nonogram panics or reports NoSolution, the latter only if there is no solution; it always panics if such a rule belongs to a column and the column rules fit, or if the puzzle has a solution. For accepted rules, a panic happens only with such a rule.", "quantifier": "all puzzles with at least one row, fewer than 2^63 squares, sides below 2^57, lines shorter than 2^31 or with rules of fewer than 2^30 numbers, and rules whose state machine fits in memory", "why_tests_cant": "All puzzles; the tests have no zeros.", "anchors": ["src/puzzles/nonogram/right_left.rs:find_left", "src/puzzles/nonogram/right_left.rs:RuleMachine::right_left", "src/puzzles/nonogram/mod.rs:solve_nonogram"]}
{"id": "C68", "title": "The parser's size test is exact", "statement": "An empty line of length n can be completed according to a rule exactly if the size computed by parse_nonogram_rules (sum plus number of gaps) is at most n; so the text of a rule is accepted for lines of length n exactly if some line of that length satisfies the rule.", "quantifier": "all rules whose size fits 64 bits, all lengths", "why_tests_cant": "Existence of completions for all rules and lengths.", "anchors": ["src/puzzles/nonogram/mod.rs:parse_nonogram_rules"]}
{"id": "C69", "title": "solve_nonogram without rows", "statement": "With no rows the answer depends on the first column only: Ok of the empty grid for no column or a single column with an empty rule, a panic for an empty rule followed by another column or a rule that starts with a zero, NoSolution otherwise.", "quantifier": "all lists of columns whose state machines fit in memory", "why_tests_cant": "All column lists; a degenerate size no test covers.", "anchors": ["src/puzzles/nonogram/mod.rs:solve_nonogram", "src/puzzles/nonogram/mod.rs:right_left"]}
{"id": "C70", "title": "Created mazes are depth-first trees", "statement": "Of any two neighbouring cells of a created maze, separated by a wall or not, one lies on the route from cell 0 to the other. In particular a maze of at least 2 x 2 cells has exactly one passage out of cell 0.", "quantifier": "all positive dimensions with width*height*24 < 2^63, all random draws", "why_tests_cant": "Quantifies over all mazes of all sizes.", "anchors": ["src/puzzles/maze/recursive_backtrack.rs:recursive_backtrack", "src/puzzles/maze/mod.rs:create_maze"]}
{"id": "C71", "title": "recursive_backtrack makes exactly the depth-first mazes", "statement": "A grid is returned by recursive_backtrack for some random draws if and only if it is a closed maze whose passages form a depth-first tree. create_maze makes each of them, up to the bottom wall of one cell of the last row.", "quantifier": "all positive dimensions with width*height*24 < 2^63, all grids", "why_tests_cant": "An equivalence between an existential over infinite draw sequences and a graph property.", "anchors": ["src/puzzles/maze/recursive_backtrack.rs:recursive_backtrack"]}
{"id": "C72", "title": "Only the first 4wh draws matter", "statement": "Two sequences of random draws that agree on the first 4*width*height values give the same maze, exit and solution.", "quantifier": "all positive dimensions with width*height*24 < 2^63, all pairs of draw sequences", "why_tests_cant": "All pairs of infinite sequences.", "anchors": ["src/puzzles/maze/recursive_backtrack.rs:recursive_backtrack"]}
{"id": "C73", "title": "The exit among equally distant cells", "statement": "For widths of at least 2, the solution read from the start is, among all routes without repetition from cell 0 to a cell of the last row, the last in the order by length and then direction by direction (right, down, left, up); this determines exit and solution from the walls alone.", "quantifier": "all widths at least 2, all heights at least 1 with width*height*24 < 2^63, all random draws, all routes", "why_tests_cant": "All routes in all mazes; ties are rare in tests.", "anchors": ["src/puzzles/maze/mod.rs:create_maze"]}
{"id": "C74", "title": "Mirrored nonograms have mirrored answers", "statement": "Solving a nonogram with the columns in reverse order and every row rule reversed gives NoSolution exactly if the original does, and otherwise the mirrored grid; likewise upside down.", "quantifier": "all puzzles within the size limits of the nonogram properties above in which no rule starts or ends with a zero (with a column, for upside down)", "why_tests_cant": "The line step scans from both ends; all puzzles of all sizes.", "anchors": ["src/puzzles/nonogram/mod.rs:solve_nonogram", "src/puzzles/nonogram/right_left.rs:right_left"]}
{"id": "C75", "title": "Error texts identify errors", "statement": "Two values of the same error type with the same Display text are equal, payload included.", "quantifier": "all pairs of error values", "why_tests_cant": "Payloads are unbounded texts and numbers.", "anchors": ["src/puzzles/sudoku/mod.rs:SudokuError", "src/puzzles/maze/mod.rs:MazeError", "src/puzzles/nonogram/mod.rs:NonogramError", "src/structures/dancing_links/mod.rs:DancingLinksError"]}
{"id": "C76", "title": "Turns of create_maze's loops", "statement": "The outer loop of recursive_backtrack makes exactly 2*width*height-1 turns and consumes exactly 4*width*height random draws; the search of create_maze takes at most width*height cells from its queue.", "quantifier": "all positive dimensions with width*height*24 < 2^63, all random draws", "why_tests_cant": "Exact running times for all sizes and draws.", "anchors": ["src/puzzles/maze/recursive_backtrack.rs:recursive_backtrack", "src/puzzles/maze/mod.rs:create_maze"]}
{"id": "C77", "title": "Passes of the nonogram propagation", "statement": "The number of passes over columns and rows is at most one more than the number of squares unknown at the start less the number still unknown at the end.", "quantifier": "all puzzles within the size limits of the nonogram properties above in which no rule starts or ends with a zero, all starting grids", "why_tests_cant": "Running time bound for all sizes.", "anchors": ["src/puzzles/nonogram/mod.rs:right_left"]}
{"id": "C78", "title": "The law of the mazes", "statement": "With fair draws, recursive_backtrack makes every maze exactly as often as the textbook recursive depth-first search in which every cell independently tries the four directions in a uniformly random order; in particular for at least two rows and columns exactly half of the draws open the right side of cell 0 and half its bottom.", "quantifier": "all positive dimensions with width*height*24 < 2^63, all mazes, all sequences of 4*width*height draws uniform over any number of values divisible by 12", "why_tests_cant": "A statement about all 12^(4wh) sequences of draws at once.", "anchors": ["src/puzzles/maze/recursive_backtrack.rs:recursive_backtrack", "src/puzzles/maze/recursive_backtrack.rs:visit_next", "src/util.rs:choose_random"]}
{"id": "C79", "title": "Rows and columns are equally likely", "statement": "A maze of w columns and h rows and the maze obtained by exchanging rows and columns are made by recursive_backtrack for equally many sequences of draws.", "quantifier": "all positive dimensions with width*height*24 < 2^63, all mazes, every number of values per draw divisible by 12", "why_tests_cant": "A statement about all sequences of draws at once.", "anchors": ["src/puzzles/maze/recursive_backtrack.rs:recursive_backtrack"]}
{"id": "C80", "title": "Depth of the recursion", "statement": "After any history solve needs at most one frame of solve_helper per constraint plus one; if every row satisfies at least k constraints, the number of constraints divided by k, plus one; k rows found need more than k frames. For sudoku 82 frames always suffice and are needed on the empty grid, so the stack depth is bounded whatever the puzzle.", "quantifier": "all constraint matrices in which no constraint names a row twice, all add_solution histories; all sudoku histories", "why_tests_cant": "A stack bound for all inputs.", "anchors": ["src/structures/dancing_links/mod.rs:solve_helper", "src/puzzles/sudoku/mod.rs:solve_sudoku"]}
{"id": "C81", "title": "For which dimensions create_maze returns", "statement": "create_maze returns a maze exactly when both dimensions are positive and the true product width*height is within the allocation limit (24 bytes per cell, 2^63 in all); in every other case it panics, in both build modes and in particular when width*height wraps around in a release build. It never runs forever and never returns a maze for wrapped dimensions.", "quantifier": "all pairs of usize dimensions, all random draws, both build modes", "why_tests_cant": "Dimensions whose product wraps around cannot be tried out.", "anchors": ["src/puzzles/maze/mod.rs:create_maze", "src/puzzles/maze/recursive_backtrack.rs:recursive_backtrack"]}
{"id": "C82", "title": "Constraints that name a row twice", "statement": "For every list of constraints, including constraints that name the same row more than once, new followed by add_solution or solve returns without touching freed memory.", "quantifier": "all lists of lists of row indices", "why_tests_cant": "All matrices; the only caller in the crate passes duplicate-free constraints.", "anchors": ["src/structures/dancing_links/mod.rs:new", "src/structures/dancing_links/mod.rs:solve", "src/structures/dancing_links/mod.rs:add_solution", "src/structures/dancing_links/node.rs:cover_column"]}
{"id": "C83", "title": "Rearranged sudokus", "statement": "If a sudoku is rearranged by a symmetry (exchanging rows and columns, turning or mirroring the grid, permuting the rows or columns inside a band, permuting bands or stacks, renaming the digits, and every combination of these), solve_sudoku returns a grid for the rearranged puzzle exactly if it does for the original one. If the original puzzle has only one completion, the grid returned for the rearranged puzzle is the rearranged grid.", "quantifier": "every 81-cell puzzle with entries 0 to 9 and every pair of bijections, of cells (mapping units onto units) and of digits", "why_tests_cant": "more than 10^12 symmetries, times all puzzles; a metamorphic relation can only be sampled by tests.", "anchors": ["src/puzzles/sudoku/mod.rs:solve_sudoku"]}
{"id": "C84", "title": "The directions of a route, counted", "statement": "In the directions returned by create_maze for width at least 2, Right occurs exactly x times more often than Left, x being the column of the exit, and Down exactly height - 1 times more often than Up. So their number is x + height - 1 plus an even number; it is below width * height. No direction is followed by its opposite.", "quantifier": "every width >= 2, height >= 1 within memory limits, every sequence of random draws", "why_tests_cant": "mazes are random and unbounded in size.", "anchors": ["src/puzzles/maze/mod.rs:create_maze", "src/puzzles/maze/recursive_backtrack.rs:recursive_backtrack"]}
{"id": "C85", "title": "Number of calls of solve_helper", "statement": "After any history of add_solution calls, solve calls solve_helper exactly once for each node of the search tree of Algorithm X (first constraint with fewest rows, rows in order) that is visited up to the first solution, or of the whole tree if there is none. In particular, if a constraint has no rows left, solve fails after a single call.", "quantifier": "every constraint matrix without repeated rows in a constraint, every history of add_solution calls", "why_tests_cant": "the running time of a search over an unbounded family of matrices; tests see only results.", "anchors": ["src/structures/dancing_links/mod.rs:DancingMatrix::solve_helper", "src/structures/dancing_links/mod.rs:DancingMatrix::solve"]}
{"id": "C86", "title": "Sudokus solved by singles need no backtracking", "statement": "If the clues of a sudoku do not exclude each other and the puzzle can be finished by singles (again and again some cell has only one candidate left, or some digit has only one place left in a row, column or box), then it has exactly one completion, solve_sudoku returns it, and it never goes back on a choice: solve_helper is called once for every cell to fill in and once more. This holds no matter in which order the singles are found by hand.", "quantifier": "every 81-entry puzzle that can be solved by singles", "why_tests_cant": "the class of such puzzles is far too large to sample, and backtracking is invisible in the results.", "anchors": ["src/puzzles/sudoku/mod.rs:solve_sudoku", "src/structures/dancing_links/mod.rs:DancingMatrix::solve_helper"]}
{"id": "C87", "title": "A picture and its rules", "statement": "For every picture of at least one row and one column, its rules in the usual notation (runs of filled squares) are accepted. If no row and no column of the picture is empty, solve_nonogram returns Ok, every square it fills is filled in the picture, and its answer satisfies the rules exactly if it is the picture. If some line is empty, it panics.", "quantifier": "every picture (list of width * height booleans), every width and height from 1 on with sides below 2^57, fewer than 2^63 squares, and lines shorter than 2^31 or with fewer than 2^30 blocks", "why_tests_cant": "2^(width*height) pictures for each of infinitely many sizes.", "anchors": ["src/puzzles/nonogram/mod.rs:solve_nonogram", "src/puzzles/nonogram/mod.rs:parse_nonogram_rules"]}
{"id": "C88", "title": "Squares fixed by one rule", "statement": "A square where the leftmost and the rightmost arrangement of a run overlap is filled in every grid that solve_nonogram returns. If for every square the rule of its row or of its column has at most one arrangement, solve_nonogram is correct: it returns the only solution, or NoSolution if there is none. A rule has at most one arrangement exactly if it is empty or fills the line. Puzzles with one row or one column are solved correctly.", "quantifier": "all puzzles within the size limits of the nonogram properties above in which no rule starts or ends with a zero", "why_tests_cant": "infinitely many puzzles.", "anchors": ["src/puzzles/nonogram/mod.rs:solve_nonogram", "src/puzzles/nonogram/right_left.rs:right_left"]}
{"id": "C89", "title": "Stack frames of find_helper", "statement": "After any history of operations, find_helper on an element needs exactly one stack frame more than the number of parent links from it to its root: it returns its result with that many frames and not with one fewer. The number of links is at most log2 of the size of its class.", "quantifier": "every history of operations, every element", "why_tests_cant": "stack usage is not visible in results, and histories are unbounded.", "anchors": ["src/structures/disjoint_set.rs:find_helper"]}
{"id": "C90", "title": "A route over the picture of a maze", "statement": "In the picture drawn by print_maze, a route that stays inside the picture touches only white pixels exactly if a walker in the maze can follow it from the entrance and leave through the bottom of its last cell. The solution of every created maze at least two cells wide stays inside its picture and touches only white pixels. If print_maze_solution accepts a list of directions, it paints over a black pixel exactly if the directions are no such walk.", "quantifier": "every maze within the size limits of the image crate, every list of directions, every sequence of random draws", "why_tests_cant": "all mazes times all routes; a test compares single images.", "anchors": ["src/puzzles/maze/mod.rs:print_maze", "src/puzzles/maze/mod.rs:print_maze_solution", "src/puzzles/maze/mod.rs:create_maze"]}
{"id": "C91", "title": "Amortised cost of the disjoint sets", "statement": "Starting from n elements, any sequence of add, find, common_set and union calls makes at most (K+2)*F + K*N calls of find_helper in all, where F is the number of find calls made (directly or by the other functions), N the number of elements at the end, and K any number with log2 N < A_K(1), A_0(j) = j+1, A_{k+1}(j) = A_k iterated j+1 times on j: the inverse Ackermann bound. For fewer than 2^64 elements this is at most 5*F + 3*N.", "quantifier": "all n, all sequences of operations of any length", "why_tests_cant": "an amortised bound speaks about whole histories; single calls can be logarithmic, and no test can see a growth rate.", "anchors": ["src/structures/disjoint_set.rs:find_helper", "src/structures/disjoint_set.rs:find", "src/structures/disjoint_set.rs:union"]}
{"id": "C92", "title": "More and fewer clues", "statement": "If solve_sudoku finds a grid for a puzzle, it finds one after erasing clues. If a puzzle has only one completion, entering any of its digits does not change the answer. Solving an answer gives the answer again. Whether the answer is the only completion can be found out with the solver: there is another exactly if, for some empty cell and some digit other than the answer's, the puzzle with that digit entered is still solved. If the clues are symmetric, the rearranged answer is a completion too; so there is a second completion whenever two digits do not occur among the clues, or two rows of one band, or two columns of one stack, are empty.", "quantifier": "every 81-cell puzzle with entries 0 to 9, every set of clues added or erased, all symmetries", "why_tests_cant": "relations between the answers for different puzzles; uniqueness is a statement about all completions.", "anchors": ["src/puzzles/sudoku/mod.rs:solve_sudoku"]}
{"id": "C93", "title": "Printed nonogram solutions can be read", "statement": "If no square of the image is entirely black before, then after print_nonogram_solution a square is marked true exactly if its whole interior is black. So different grids give different images. Printing a second grid over the first gives the image of the union of both.", "quantifier": "every size within the 32-bit limits, every image of the right size, every grid", "why_tests_cant": "all grids of all sizes, all images.", "anchors": ["src/puzzles/nonogram/mod.rs:print_nonogram_solution"]}
{"id": "C94", "title": "Printed sudokus can be read", "statement": "Provided the font writes each digit into a box of 70 times 90 pixels, with pictures that differ pairwise and from a white box: in the image made by print_sudoku each cell shows the picture of its digit (white for an empty cell), the rest of the image is the empty grid, different puzzles have different images, and the image of an answer of solve_sudoku shows all clues as the image of the puzzle does.", "quantifier": "every puzzle with 81 entries 0 to 9, every font with the stated property, both build modes", "why_tests_cant": "10^81 puzzles.", "anchors": ["src/puzzles/sudoku/mod.rs:print_sudoku", "src/puzzles/sudoku/mod.rs:solve_sudoku"]}
{"id": "C95", "title": "Steps of solve_nonogram", "statement": "Count as steps the turns of all loops and the items of all vectors made, collected, mapped or cloned. solve_nonogram on w columns and h rows, whose rules have at most M as the sum of their numbers plus their length, makes at most 2wh + 2(M+2)(w+h) + (wh+1)(w*L(h) + h*L(w)) steps with an explicit polynomial L(n) for one line of n squares. For n by n puzzles whose rules fit into their lines this is at most 420*n^6: the line solver is polynomial although a line can have exponentially many fillings.", "quantifier": "all puzzles within the size limits in which no rule starts or ends with a zero, both build modes", "why_tests_cant": "a bound on the running time for all inputs; timing tests only see single inputs.", "anchors": ["src/puzzles/nonogram/mod.rs:solve_nonogram", "src/puzzles/nonogram/right_left.rs:find_left"]}
{"id": "C96", "title": "Steps of create_maze", "statement": "Count as steps the turns of all loops, the calls of find_helper and the items of all vectors made. create_maze on w*h cells makes at most 71*w*h steps, whatever is drawn.", "quantifier": "all positive dimensions whose vectors can be allocated, all sequences of random draws, both build modes", "why_tests_cant": "a linear bound for all sizes and all draws needs an amortised argument; a timing test sees one run.", "anchors": ["src/puzzles/maze/mod.rs:create_maze", "src/puzzles/maze/recursive_backtrack.rs:recursive_backtrack", "src/structures/disjoint_set.rs:find_helper"]}
{"id": "C97", "title": "Size of the search", "statement": "If no constraint has more than b rows, every row lies in at least q constraints and at most q*d constraints are left after the add_solution calls, solve calls solve_helper at most 1 + b + ... + b^d times; for a sudoku with n clues at most 1 + 9 + ... + 9^(81-n) times. The exponential growth is real: for every n there is a problem with n+3 constraints of two rows each, on which solve answers NoSolution after exactly 2^(n+2)-1 calls.", "quantifier": "all duplicate-free constraint lists, all histories of add_solution, all 81-cell puzzles; all n for the lower bound", "why_tests_cant": "a worst case over all problems; the lower bound is an infinite family.", "anchors": ["src/structures/dancing_links/mod.rs:solve_helper", "src/structures/dancing_links/mod.rs:solve", "src/puzzles/sudoku/mod.rs:solve_sudoku"]}
{"id": "C98", "title": "The answers do not depend on where nodes are allocated", "statement": "Making a DancingMatrix, calling add_solution for any rows and then solve gives the same answers wherever the allocator puts the nodes and whatever else is in memory, and whether it uses freed memory, panics or runs forever does not depend on it either. On return no other memory has been changed and, if no constraint names a row twice, all the nodes have been freed. The same holds for solve_sudoku.", "quantifier": "every allocator that returns different non-null addresses, every other content of the memory, every constraint matrix, every list of rows, every puzzle", "why_tests_cant": "tests run under one allocator; comparisons of pointers could depend on addresses without any test showing it.", "anchors": ["src/structures/dancing_links/mod.rs:DancingMatrix::new", "src/structures/dancing_links/mod.rs:DancingMatrix::add_solution", "src/structures/dancing_links/mod.rs:DancingMatrix::solve", "src/structures/dancing_links/node.rs:Node::new", "src/puzzles/sudoku/mod.rs:solve_sudoku"]}
{"id": "C99", "title": "What happens when an allocation fails", "statement": "DancingMatrix::new calls alloc once for the root, once for every constraint and once for every entry, and does not check the results: it returns if none of them is null, and writes through a null pointer if one of them is. For solve_sudoku these are 3241 allocations.", "quantifier": "every allocator whose non-null results differ, every constraint matrix, every puzzle of 81 entries, whichever allocation fails", "why_tests_cant": "alloc does not fail in tests.", "anchors": ["src/structures/dancing_links/node.rs:Node::new", "src/structures/dancing_links/node.rs:Node::new_header", "src/structures/dancing_links/mod.rs:DancingMatrix::new", "src/puzzles/sudoku/mod.rs:solve_sudoku"]}
{"id": "C100", "title": "Stored mazes", "statement": "A maze and its directions survive being serialised and deserialised, in formats with names as well as in formats with positions, and different mazes are stored differently. A cell is accepted exactly if it is a map that gives right once and down once, with boolean values, in any order and among any unknown fields, or a sequence beginning with the two values; a direction exactly if it is one of the four names or positions without payload; a maze exactly if it is a sequence of accepted cells.", "quantifier": "every grid, every list of directions, every value of serde's data model", "why_tests_cant": "the set of values is infinite; the repository has no test of it.", "anchors": ["src/puzzles/maze/mod.rs:MazeNode", "src/puzzles/maze/mod.rs:MazeDirection"]}
{"id": "C101", "title": "The depth of the trees is attained", "statement": "For every number n of elements there are fewer than n unions after which find, for some element, follows log2(n) links and needs log2(n) + 1 nested calls of find_helper, so the bounds of C23 and C89 are the best possible.", "quantifier": "every n > 0", "why_tests_cant": "a statement about every number of elements.", "anchors": ["src/structures/disjoint_set.rs:union", "src/structures/disjoint_set.rs:find_helper"]}
{"id": "C102", "title": "Steps at the level of pointers", "statement": "Counting one step for every next of an iterator, every call on a node and every turn of a loop: new makes one step for each node and each entry of the table of rows; add_solution makes at most 1 step, and 11 for each node it removes, so that any history costs at most 12 steps per node and 1 per call beyond the table; solve makes at most 15 steps for each node left and each call of solve_helper; giving back a matrix at most 4 per node left. solve_sudoku, whenever it returns, makes at most 48615 steps for each call of solve_helper and 53000 besides; a puzzle that singles solve takes at most 48615 * (82 - clues) + 53000.", "quantifier": "every constraint matrix without repeated entries, every history of add_solution calls, every puzzle", "why_tests_cant": "step counts are not visible to tests, and the bound is for all sizes.", "anchors": ["src/structures/dancing_links/mod.rs:DancingMatrix::new", "src/structures/dancing_links/mod.rs:DancingMatrix::add_solution", "src/structures/dancing_links/mod.rs:DancingMatrix::solve", "src/structures/dancing_links/mod.rs:DancingMatrix::solve_helper", "src/structures/dancing_links/node.rs:Node::cover_column", "src/structures/dancing_links/node.rs:Node::uncover_column", "src/puzzles/sudoku/mod.rs:solve_sudoku"]}
{"id": "C103", "title": "Shortest and longest possible route of a created maze", "statement": "For every width >= 1 and height >= 1 accepted by create_maze, and every sequence of random draws, the returned solution has at least width + height - 2 directions and at most width * height - 1; for every such width and height some draws give a solution of exactly width + height - 2 directions and some draws give one of exactly width * height - 1.", "quantifier": "all widths, heights (width * height * 24 < 2^63), overflow modes and draw sequences; existence of draws for each width and height", "why_tests_cant": "the extremes are reached by a vanishing fraction of the draws, and a bound over all draws needs a proof", "anchors": ["src/puzzles/maze/mod.rs:create_maze", "src/puzzles/maze/recursive_backtrack.rs:recursive_backtrack", "src/puzzles/maze/recursive_backtrack.rs:visit_next"]}
{"id": "C104", "title": "Where the exit of a created maze can be", "statement": "For width >= 2 the solution of a created maze passes through both neighbours of the exit cell in the last row (those that exist). A maze of one row has its exit in the last column; a maze of width 3 never has its exit in the middle column; a maze of two rows and at least three columns never has it in the second column. With at least two rows some draws put the exit into the first column and some into the last.", "quantifier": "all positive dimensions within the memory limit, all sequences of random draws; existence of draws for each width and height", "why_tests_cant": "that a column is never chosen is a statement about all draws of all sizes", "anchors": ["src/puzzles/maze/mod.rs:create_maze", "src/puzzles/maze/recursive_backtrack.rs:recursive_backtrack", "src/puzzles/maze/recursive_backtrack.rs:visit_next"]}
{"id": "C105", "title": "print_maze on every input", "statement": "For a grid of width * height cells: with overflow checks print_maze returns a picture exactly if 10*width+1 and 10*height+1 fit in u32 and the buffer fits in an allocation, and panics otherwise; without overflow checks the dimensions and all coordinates are taken modulo 2^32, and it returns a picture exactly if the buffer fits and every wall pixel, so reduced, lies inside it, and panics otherwise. In both cases every pixel of the picture is known: left border, top border from pixel 10 on, and the walls, cell c being drawn at the place of cell c mod 2^32. For drawable dimensions, two different grids with equal pictures exist exactly if there are more than 2^32 cells; a release build draws a row of 429496730 open cells 5 pixels wide.", "quantifier": "all grids and dimensions, both overflow modes", "why_tests_cant": "the boundary cases need gigabytes of cells.", "anchors": ["src/puzzles/maze/mod.rs:print_maze"]}
{"id": "C106", "title": "print_maze_solution on images of every size", "statement": "For every image of at least 6 x 6 pixels with u32 dimensions and every list of directions, print_maze_solution panics exactly if some step, all steps before it being accepted, goes right out of column 429496728 or down out of row 429496728, or if all steps are accepted and the route ends in row 429496728 and either overflow checks are on or the image has fewer than 4294967291 rows. It returns a picture exactly if all steps are accepted and the image continues 16 rows below the top of the last cell, or the route ends in row 429496728 of an image of at least 4294967291 rows without overflow checks; exactly the route is then red. Otherwise it returns InvalidSolution. No route panics exactly on images with a dimension below 6 or with both dimensions at most 2^32 - 11.", "quantifier": "all images, routes and overflow modes", "why_tests_cant": "the boundary cases need images of more than 2^32 - 11 columns or rows.", "anchors": ["src/puzzles/maze/mod.rs:print_maze_solution"]}
{"id": "C107", "title": "Where print_nonogram puts the numbers", "statement": "The numbers above a column are drawn 30 pixels high, below each other from pixel row 10 on. For the rules without zeros that fit into a column they all stay clear of the horizontal grid lines exactly if the puzzle has at most 8 rows, and all begin above the grid exactly if it has at most 10; with 9 rows or more, a column 1,1,...,1 has a number that a grid line is drawn across. They always end inside the picture, and the text of a row always lies between two grid lines.", "quantifier": "all numbers of columns and rows, all rules without zeros of the given minimal length, every font", "why_tests_cant": "tests compare single pictures with stored ones; the statement is about all puzzles.", "anchors": ["src/puzzles/nonogram/mod.rs:print_nonogram"]}
{"id": "C108", "title": "print_nonogram_solution with any number of squares", "statement": "For sides below 2^31 and any number of squares, print_nonogram_solution blackens exactly the interiors of the squares marked true, square i being drawn at the place of square i mod 2^32; on a blank image different grids give different pictures exactly if there are at most 2^32 squares. With overflow checks, for all u32 dimensions, it panics if a margin (10 times a dimension) overflows, before the number of squares is looked at; then rejects a wrong number of squares; then panics if a side overflows or rejects an image of another side, first for the width and then for the height.", "quantifier": "all dimensions (sides below 2^31 for the pictures), all images and grids", "why_tests_cant": "the boundary cases need billions of squares.", "anchors": ["src/puzzles/nonogram/mod.rs:print_nonogram_solution"]}
{"id": "C109", "title": "Every simple path from the first cell can be carved", "statement": "For every list of cells that starts with cell 0, visits no cell twice and goes from each cell to a neighbour of it there are draws for which the list can be walked in the created maze; if in addition the list visits every cell of the last row and ends there, and the width is at least 2, there are draws for which the returned solution is exactly this list of cells.", "quantifier": "all positive dimensions within the memory limit, all simple paths, both overflow modes", "why_tests_cant": "the number of simple paths grows exponentially with the number of cells.", "anchors": ["src/puzzles/maze/mod.rs:create_maze", "src/puzzles/maze/recursive_backtrack.rs:recursive_backtrack", "src/puzzles/maze/recursive_backtrack.rs:visit_next"]}
{"id": "C110", "title": "The possible columns of the exit, exactly", "statement": "For every size and every column there are draws that put the exit of the created maze into that column, except: all columns but the last when there is one row, the middle column when the width is 3, and the second column when there are two rows and at least three columns.", "quantifier": "all positive dimensions within the memory limit, all columns, both overflow modes", "why_tests_cant": "possibility needs a search among exponentially many mazes, impossibility a statement about all of them.", "anchors": ["src/puzzles/maze/mod.rs:create_maze", "src/puzzles/maze/recursive_backtrack.rs:recursive_backtrack", "src/puzzles/maze/recursive_backtrack.rs:visit_next"]}
{"id": "C111", "title": "print_nonogram on every input", "statement": "With overflow checks print_nonogram returns the picture of C50 exactly if both sides are below 2^32, the buffer is below 2^63 bytes and no column has more than 143165577 numbers, and panics otherwise. Without overflow checks all positions are cut to 32 bits; it returns exactly if the buffer of the cut sides is below 2^63 bytes and all pixels of grid lines lie in the picture, which is then the one with all positions cut, and panics otherwise. Where the first returns a picture the second returns the same. For 2^30 columns and rows the second returns an empty picture, the first panics.", "quantifier": "all column and row rules, every font, both overflow modes (drawing a text is taken to return)", "why_tests_cant": "the boundary cases need pictures with sides of billions of pixels.", "anchors": ["src/puzzles/nonogram/mod.rs:print_nonogram"]}
{"id": "C112", "title": "The puzzles on which solve_nonogram panics, exactly", "statement": "solve_nonogram panics exactly if some rule starts or ends with a zero and, for the first such rule in the order columns, rows: it belongs to a column, starts with the zero or fits, and the columns before it fit; or it belongs to a row, all columns fit, each row before it has a filling that agrees with all squares whose value is the same in all fillings of their column, and the rule starts with the zero or its row has such a filling. All other puzzles with such a rule are answered with NoSolution.", "quantifier": "all puzzles with at least one row within the size limits, both overflow modes", "why_tests_cant": "the condition quantifies over all fillings of all columns; a test sees one puzzle.", "anchors": ["src/puzzles/nonogram/mod.rs:solve_nonogram", "src/puzzles/nonogram/mod.rs:right_left", "src/puzzles/nonogram/right_left.rs:RuleMachine::right_left", "src/puzzles/nonogram/right_left.rs:find_left"]}
{"id": "C113", "title": "Debug and release builds", "statement": "Whatever the input, a debug build (overflow checks) either panics or has the same outcome as a release build (wrapping arithmetic): the same value, error, panic or non-termination. For create_maze, print_sudoku and, on puzzles within the size limits, solve_nonogram the two builds always have the same outcome, panics included.", "quantifier": "all inputs of create_maze, print_maze, print_maze_solution, print_sudoku, parse_nonogram_rules, solve_nonogram, print_nonogram and print_nonogram_solution, all random draws", "why_tests_cant": "a relation between two builds of the program; tests run one of them, and inputs on which they differ are huge.", "anchors": ["src/puzzles/maze/mod.rs:create_maze", "src/puzzles/maze/mod.rs:print_maze", "src/puzzles/maze/mod.rs:print_maze_solution", "src/puzzles/sudoku/mod.rs:print_sudoku", "src/puzzles/nonogram/mod.rs:parse_nonogram_rules", "src/puzzles/nonogram/mod.rs:solve_nonogram", "src/puzzles/nonogram/mod.rs:print_nonogram", "src/puzzles/nonogram/mod.rs:print_nonogram_solution"]}
{"id": "C114", "title": "Stack and queue of create_maze", "statement": "In every state reached by the loop of recursive_backtrack the stack is a route through the maze as carved so far: it starts in the first cell, each cell is one move from the one before, and no cell occurs twice. So it never holds more than width*height cells, a bound that is attained in every grid for suitable draws. After n turns of the search n different cells have been taken from the queue, and the cells in it are different from those and from each other, so at most width*height-n.", "quantifier": "all positive dimensions within the allocation limit, all draws, all numbers of turns", "why_tests_cant": "an invariant of every intermediate state for all random sequences; tests see results.", "anchors": ["src/puzzles/maze/recursive_backtrack.rs:recursive_backtrack", "src/puzzles/maze/mod.rs:create_maze"]}
{"id": "C115", "title": "solve_nonogram against solving line by line", "statement": "Call a partly solved grid closed if every row and column has a completion and, for each of its unknown squares, two completions that differ there: no line by itself tells more. Every square that solve_nonogram fills is filled in all closed grids; if it reports NoSolution there is no closed grid; if it solves the puzzle, the solution is the only closed grid. The solver uses less than the lines tell: there is a puzzle whose only closed grid is its solution, on which it returns a grid that is not the solution, and a puzzle without closed grids on which it returns a grid.", "quantifier": "all puzzles within the size limits in which no rule starts or ends with a zero; the last part by two puzzles, for every build", "why_tests_cant": "compares the propagation with the strongest reasoning on single lines, over all puzzles; tests check chosen puzzles.", "anchors": ["src/puzzles/nonogram/mod.rs:solve_nonogram", "src/puzzles/nonogram/mod.rs:right_left", "src/puzzles/nonogram/right_left.rs:RuleMachine::right_left"]}
{"id": "C116", "title": "Blank lines at the border of a nonogram", "statement": "Adding a row or column with the empty rule at one of the four borders of a puzzle does not change what solve_nonogram says about the rest: NoSolution is reported for the larger puzzle exactly if it is for the smaller one, and otherwise the larger answer is the smaller one with a blank line added on that side.", "quantifier": "all puzzles within the size limits in which no rule starts or ends with a zero (with a column, for the sides and the bottom), all four borders, every build", "why_tests_cant": "an equation between the answers to two puzzles, for all puzzles of all sizes.", "anchors": ["src/puzzles/nonogram/mod.rs:solve_nonogram", "src/puzzles/nonogram/mod.rs:right_left", "src/puzzles/nonogram/right_left.rs:RuleMachine::right_left"]}
{"id": "C117", "title": "The dimensions for which solve_nonogram is always right", "statement": "Every puzzle with at most one column or with exactly one row is answered with its solution, or with NoSolution if there is none. For all other dimensions there is a puzzle that has a solution and is answered with a grid that is none. For all other dimensions but 2x2 there is also a puzzle without a solution that is answered with a grid; at 2x2 unsolvable puzzles are always recognised.", "quantifier": "all dimensions with at least one row, sides below 2^57 and fewer than 2^63 squares; for the positive parts all puzzles of those dimensions in which no rule starts or ends with a zero, every build", "why_tests_cant": "a statement about all puzzles of a dimension and about all dimensions; tests use four puzzles.", "anchors": ["src/puzzles/nonogram/mod.rs:solve_nonogram", "src/puzzles/nonogram/mod.rs:right_left", "src/puzzles/nonogram/right_left.rs:RuleMachine::right_left"]}
{"id": "C118", "title": "The dimensions for which uniquely solvable puzzles are solved", "statement": "A puzzle with at most three rows and three columns that has exactly one solution is answered with it (as is every puzzle with a single row or column, C117). For all other dimensions, two or more rows and columns and four or more of one of them, there is a puzzle with exactly one solution on which solve_nonogram returns a grid that is not the solution.", "quantifier": "all dimensions with sides below 2^57 and fewer than 2^63 squares; for the first part all puzzles of those dimensions in which no rule starts or ends with a zero, every build", "why_tests_cant": "a statement about all puzzles of a dimension and about all dimensions; tests use four puzzles.", "anchors": ["src/puzzles/nonogram/mod.rs:solve_nonogram", "src/puzzles/nonogram/mod.rs:right_left", "src/puzzles/nonogram/right_left.rs:RuleMachine::right_left"]}
{"id": "C119", "title": "Dead ends of created mazes", "statement": "In a created maze two cells next to each other, with or without a wall between them and neither of them the first cell, are never both dead ends (cells with exactly one passage). So at most half of the cells are dead ends besides the first cell; a maze of at least two cells has at least one such dead end, and for all dimensions some draws give exactly one. recursive_backtrack can make every perfect maze (closed outer walls, passages forming a tree) exactly if there is only one row or only one column.", "quantifier": "all dimensions of at least 1 within the allocation limit, all random draws, all pairs of neighbouring cells, all perfect mazes", "why_tests_cant": "a statement about every maze and every neighbouring pair of cells, and about the set of all mazes the generator can reach.", "anchors": ["src/puzzles/maze/mod.rs:create_maze", "src/puzzles/maze/recursive_backtrack.rs:recursive_backtrack", "src/puzzles/maze/recursive_backtrack.rs:visit_next"]}
{"id": "C120", "title": "From the entered text to the picture", "statement": "Sudoku: for every text of 81 digits that can be completed (0 for an empty cell), parse_sudoku, solve_sudoku and print_sudoku succeed one after the other and, provided the font is readable, the image shows cell by cell a finished sudoku with the digits of the text; for a text that cannot be completed solve_sudoku reports NoSolution or has the memory error of C52. Nonogram: for every picture without empty lines, the texts of its rules are parsed, solved, printed and printed with the answer without an error; only squares filled in the picture are painted, and exactly those if the answer satisfies the rules.", "quantifier": "all texts of 81 digits; all pictures of 1 to 65535 rows and columns without empty lines; both build modes; all fonts", "why_tests_cant": "quantifies over all texts and pictures and composes five functions whose tests are separate; only a proof shows that what one accepts the next one can handle.", "anchors": ["src/puzzles/sudoku/mod.rs:parse_sudoku", "src/puzzles/sudoku/mod.rs:solve_sudoku", "src/puzzles/sudoku/mod.rs:print_sudoku", "src/puzzles/nonogram/mod.rs:parse_nonogram_rules", "src/puzzles/nonogram/mod.rs:solve_nonogram", "src/puzzles/nonogram/mod.rs:print_nonogram", "src/puzzles/nonogram/mod.rs:print_nonogram_solution"]}
{"id": "C121", "title": "How likely each maze is", "statement": "For fair draws (as in C78), a maze that recursive_backtrack can return is returned with probability 1 divided by a product over its passages: a passage from cell c, taken in the direction that leads away from cell 0, contributes the number of neighbours of c (behind a wall or not) that lie beyond the passage. The product is 2^((w-1)(h-1)) times (3/4)^t, where t is the number of passages with three such neighbours.", "quantifier": "all positive dimensions with w*h*24 < 2^63, all closed depth-first mazes (C71: exactly those that can be returned), both build modes, every number of draws divisible by 12", "why_tests_cant": "an exact probability for every maze of every size; sampling gives estimates for small grids only.", "anchors": ["src/puzzles/maze/recursive_backtrack.rs:recursive_backtrack", "src/puzzles/maze/recursive_backtrack.rs:visit_next", "src/util.rs:choose_random"]}
{"id": "C122", "title": "The number of mazes, and when they are equally likely", "statement": "recursive_backtrack can return at most 2^((w-1)(h-1)) different mazes, and exactly that many if and only if a side is at most 2. All mazes that it can return are equally likely if and only if a side is at most 2. None has a probability below 1/2^((w-1)(h-1)), and the maze that goes through all cells row by row has exactly that probability.", "quantifier": "all positive dimensions with w*h*24 < 2^63, both build modes, every positive number of draws divisible by 12", "why_tests_cant": "counts the results over all draws for all dimensions at once.", "anchors": ["src/puzzles/maze/recursive_backtrack.rs:recursive_backtrack", "src/puzzles/maze/recursive_backtrack.rs:visit_next", "src/util.rs:choose_random"]}
{"id": "C123", "title": "How likely each created maze is", "statement": "Two runs of create_maze return the same maze if and only if the runs of recursive_backtrack inside them do, and then also the same solution: opening the exit hides no difference and the search adds none. So a maze with its exit and solution is created with exactly the probability of C121, and create_maze has at most 2^((w-1)(h-1)) different results, exactly that many if and only if a side is at most 2.", "quantifier": "all positive dimensions with w*h*24 < 2^63, all pairs of random draws, both build modes; for the probability every number of draws divisible by 12", "why_tests_cant": "relates all pairs of runs and counts results over all draws, for all dimensions at once.", "anchors": ["src/puzzles/maze/mod.rs:create_maze", "src/puzzles/maze/recursive_backtrack.rs:recursive_backtrack"]}
{"id": "C124", "title": "The most likely mazes, and how few mazes there can be", "statement": "No maze is returned by recursive_backtrack with a probability above (4/3)^((w-2)(h-2)) / 2^((w-1)(h-1)), and some maze has exactly that probability if and only if a side is at most 3 (read w-2 as 0 for w = 1, and likewise h-2). So at least 2^((w-1)(h-1)) * (3/4)^((w-2)(h-2)) different mazes can be returned, exactly that many if and only if a side is at most 2.", "quantifier": "all positive dimensions with w*h*24 < 2^63, all grids, both build modes; for the probability every positive number of draws divisible by 12", "why_tests_cant": "compares the numbers of draws of all mazes of all dimensions; both are exponential in w*h.", "anchors": ["src/puzzles/maze/recursive_backtrack.rs:recursive_backtrack", "src/util.rs:choose_random"]}
{"id": "C125", "title": "print_nonogram_solution on large images and with wrapping numbers", "statement": "With overflow checks, if a side of the image has at least 2^31 pixels and both have fewer than 2^32, print_nonogram_solution on a grid and an image of the right size panics if some marked square contains pixel column or row 2^31-1 and otherwise returns the image unchanged: no marked square is drawn. With wrapping numbers, for all inputs: a grid or an image of another size than the wrapped one gives InvalidDimensions; without marked squares the image is unchanged; with a marked square and a wrapped side of 0 it panics; otherwise exactly the pixels of the marked squares become black, each square being the 49 pixels from its wrapped position, read as a signed number, as far as they are in the image, and nothing if they would reach 2^31 or the image is larger than 2^31. In both build modes a picture with a side from 2^31 up to 2^32 comes back without any of the solution.", "quantifier": "all dimensions, images and grids", "why_tests_cant": "an image with a side of 2^31 pixels needs more than a terabyte, and the claim is about every pixel of every such image.", "anchors": ["src/puzzles/nonogram/mod.rs:print_nonogram_solution"]}
{"id": "C126", "title": "The bytes of image_to_png_bytes", "statement": "image_to_png_bytes returns the error of the encoder, if there is one, and otherwise exactly the bytes the encoder wrote, in the order in which they were written. With an encoder that loses nothing, two images give the same bytes if and only if they have the same size and the same pixels; so the bytes of a printed maze determine its dimensions and every wall, those of a printed sudoku (with a readable font) every cell, and those of a printed nonogram solution the marked squares.", "quantifier": "all images, all encoders, mazes of all printable dimensions, all sudokus, all nonogram solutions", "why_tests_cant": "quantifies over all pairs of images and over the encoder, which belongs to another crate.", "anchors": ["src/lib.rs:image_to_png_bytes", "src/puzzles/maze/mod.rs:print_maze", "src/puzzles/sudoku/mod.rs:print_sudoku", "src/puzzles/nonogram/mod.rs:print_nonogram_solution"]}
{"id": "C127", "title": "Passes of the propagation that are really needed", "statement": "For every k there is a nonogram with two rows and 4k+2 columns that solve_nonogram solves, but only after at least 2k-1 passes over all rows and columns that change the grid: a quarter of the number of its squares, less two. So the bound of C77, one pass for every unknown square, cannot be improved by more than the factor 4, not even for solvable puzzles.", "quantifier": "all k with 4k+2 < 2^31, both build modes; every bound on the number of passes that holds for all solvable puzzles", "why_tests_cant": "a lower bound for infinitely many puzzles; a test can count the passes of single puzzles only and says nothing about every possible bound.", "anchors": ["src/puzzles/nonogram/mod.rs:solve_nonogram", "src/puzzles/nonogram/mod.rs:right_left", "src/puzzles/nonogram/right_left.rs:RuleMachine::right_left"]}
{"id": "C128", "title": "Row numbers too large for DancingMatrix::new", "statement": "On a target whose usize and pointers have ws bytes, DancingMatrix::new gives the result of the unlimited model exactly when the capacity that the vector of rows needs (doubled at each growth, or raised to what is needed, never below 4) stays below 2^(8*ws-1) bytes, and panics otherwise. So with row numbers i for which 2*ws*i is below 2^(8*ws-1) (i below 2^59 on 64-bit targets) the vector of rows in DancingMatrix::new grows without panic and the result is that of the unlimited model. With a row number for which ws*(i+1) is 2^(8*ws-1) or more (2^60-1 on, on 64-bit targets), new panics in debug and release builds (capacity overflow, or the wrapped index + 1 for the last usize value), and the nodes allocated so far are leaked: the root, one header for each column begun, one node for each cell before the row number at which the vector fails to grow.", "quantifier": "all lists of columns of usize row numbers, both build modes, ws = 2, 4, 8", "why_tests_cant": "the inputs that fail need vectors of 2^60 entries or the end of the usize range, and a leak after a panic is invisible to an ordinary test.", "anchors": ["src/structures/dancing_links/mod.rs:DancingMatrix::new", "src/structures/dancing_links/node.rs:Node::new", "src/structures/dancing_links/node.rs:Node::new_header"]}
{"id": "C129", "title": "The i32 block counters of the nonogram line step", "statement": "With overflow checks a line step panics exactly if the line can be completed and the rule asks for more than 2^30 blocks, or for exactly 2^30 and the last square can stay empty. Without overflow checks it never panics, reports NoSolution exactly for lines that cannot be completed, and with fewer than 2^31 blocks sets exactly the settled squares as in C58; with 2^31 blocks or more it is wrong: on a long enough empty line with blocks of length one it blocks square 2^32-1, which is filled in some completion.", "quantifier": "all rules that neither start nor end with a zero and whose state machine fits in memory, all lines of fewer than 2^57 squares, both build modes; for the wrong square all rules of k >= 2^31 ones and all empty lines of at least 2^32 + 2k and fewer than 2^57 squares", "why_tests_cant": "the counters overflow only for rules with a billion numbers.", "anchors": ["src/puzzles/nonogram/right_left.rs:RuleMachine::right_left"]}
{"id": "C130", "title": "What an answer is worth when constraints repeat rows", "statement": "Whatever the constraints, and whatever the build does when a counter leaves its range: the rows accepted by add_solution are distinct, occur in the matrix, and no constraint contains one of them twice or two of them; and when solve returns Ok, the rows it adds have the same property together with the accepted ones. It need not be an exact cover: with repeated rows solve can return Ok and leave a constraint unsatisfied, even one without repetitions, it can report NoSolution although there is an exact cover that meets every constraint once, and the two builds differ (overflow checks panic where a release build answers, reports NoSolution wrongly or uses freed memory).", "quantifier": "all lists of constraints (repetitions allowed), all histories of add_solution calls that return, all arithmetic of the counters", "why_tests_cant": "the callers in the repository never repeat a row, so no test reaches these matrices.", "anchors": ["src/structures/dancing_links/mod.rs:DancingMatrix::solve", "src/structures/dancing_links/mod.rs:DancingMatrix::add_solution", "src/structures/dancing_links/node.rs:Node::cover_column", "src/structures/dancing_links/node.rs:Node::uncover_column"]}
{"id": "C131", "title": "Overflow checks make no difference to dancing links without repeated rows", "statement": "If no constraint repeats a row, the counters of the headers never leave the range of usize: a build with overflow checks and a build without reach the same states by the same calls of add_solution with the same results, any further call of add_solution or solve has the same outcome in both, and solve returns rows that complete the accepted ones to an exact cover, or NoSolution if there are none, with every node freed. This covers the matrix of the sudoku solver.", "quantifier": "all lists of constraints without repeated rows whose lengths and rows are usize values, all histories of add_solution calls, both build modes, every width of usize", "why_tests_cant": "a test runs in one build mode only.", "anchors": ["src/structures/dancing_links/mod.rs:DancingMatrix::solve", "src/structures/dancing_links/mod.rs:DancingMatrix::add_solution", "src/structures/dancing_links/node.rs:Node::cover_column", "src/structures/dancing_links/node.rs:Node::uncover_column"]}
{"id": "C132", "title": "solve_sudoku in a debug and in a release build", "statement": "solve_sudoku has the same outcome with and without overflow checks, for every slice: the same answer or error, the same memory, undefined behaviour on the same inputs; it never panics and never runs forever, and on puzzles with entries from 0 to 9 it returns a completion in both builds exactly if there is one.", "quantifier": "all byte slices, both build modes, targets with a usize of 16 bits or more", "why_tests_cant": "a relation between two builds of the program; tests run one of them.", "anchors": ["src/puzzles/sudoku/mod.rs:solve_sudoku"]}
{"id": "C133", "title": "create_maze on 16-bit, 32-bit and 64-bit targets", "statement": "On a target whose usize has ws bytes, create_maze returns exactly when both dimensions are positive and 3*ws*width*height is below 2^(8*ws-1), and then it returns the maze and route a 64-bit target would return for the same draws, so all its properties hold there; in every other case it panics, in both build modes, in particular when width*height wraps around.", "quantifier": "all usize dimensions, all random draws, both build modes, ws = 2, 4, 8", "why_tests_cant": "tests run on the machine they are built for.", "anchors": ["src/puzzles/maze/mod.rs:create_maze", "src/puzzles/maze/recursive_backtrack.rs:recursive_backtrack"]}
{"id": "C134", "title": "Nonograms on 16-bit, 32-bit and 64-bit targets", "statement": "On a target whose usize has ws bytes, for puzzles whose vectors stay below isize::MAX bytes, solve_nonogram does exactly what it does on a 64-bit target, panics included, in both builds. With overflow checks parse_nonogram_rules accepts the same texts with the same rules on all targets: those that list numbers whose rules fit the bound. Without them it accepts the texts whose numbers are below 2^(8*ws) and whose rules fit modulo 2^(8*ws), so that a 32-bit target accepts rules a 64-bit target rejects. Texts whose numbers and gaps add up to less than 2^(8*ws) in every rule have the same outcome, errors included, and puzzles accepted for sides below 2^(8*ws-7) the same answer. A number of 2^(8*ws-1) or more always makes the solver panic.", "quantifier": "all texts, bounds and rule lists, both build modes, ws = 2, 4, 8", "why_tests_cant": "tests run on the machine they are built for.", "anchors": ["src/puzzles/nonogram/mod.rs:parse_nonogram_rules", "src/puzzles/nonogram/mod.rs:solve_nonogram", "src/puzzles/nonogram/right_left.rs:RuleMachine"]}
{"id": "C135", "title": "Printing mazes and nonograms on 32-bit and 64-bit targets", "statement": "On a 32-bit target print_maze, print_nonogram and print_nonogram_solution do what they do on a 64-bit target, except that they panic when the buffer of the picture would exceed isize::MAX bytes, as long as width*height is below 2^32. When the sides of the picture fit in u32, print_maze returns a picture exactly for grids of width*height cells whose picture fits in memory, and print_nonogram_solution never accepts a grid of the wrong length. When both the number of cells and a side of the picture wrap, a release build for a 32-bit target takes an empty grid for a maze of 2^31 by 2 cells or for a nonogram of 2^31 by 2 squares and succeeds, where a 64-bit target reports InvalidDimensions and a debug build panics.", "quantifier": "all u32 dimensions, all grids, rules and images, both build modes, usize of 4 or 8 bytes", "why_tests_cant": "tests run on the machine they are built for, and no test has 2^32 cells.", "anchors": ["src/puzzles/maze/mod.rs:print_maze", "src/puzzles/nonogram/mod.rs:print_nonogram", "src/puzzles/nonogram/mod.rs:print_nonogram_solution"]}
{"id": "C136", "title": "Whole runs on 32-bit and 64-bit targets", "statement": "When the picture fits in an allocation of the target, create_maze followed by print_maze succeeds on a 32-bit target and gives the perfect maze, the route and the picture that a 64-bit target gives for the same draws. For every nonogram picture without empty lines whose image fits, parsing its written rules, solving, printing the puzzle and printing the answer succeed on the target, and in the final image only filled squares of the picture are painted, all of them if the answer satisfies the rules.", "quantifier": "all dimensions and draws, all pictures with sides up to 65535 without empty lines, both build modes, usize of 4 or 8 bytes", "why_tests_cant": "tests run on the machine they are built for and sample few pictures.", "anchors": ["src/puzzles/maze/mod.rs:create_maze", "src/puzzles/maze/mod.rs:print_maze", "src/puzzles/nonogram/mod.rs:parse_nonogram_rules", "src/puzzles/nonogram/mod.rs:solve_nonogram", "src/puzzles/nonogram/mod.rs:print_nonogram", "src/puzzles/nonogram/mod.rs:print_nonogram_solution"]}
{"id": "C137", "title": "The outcome of parse_nonogram_rules on every target", "statement": "For a usize of any number of bytes, parse_nonogram_rules without overflow checks never panics and returns what the text says, with the length of each rule taken modulo the range of usize: the rules, or InvalidRule with the first field that is no usize literal, or InvalidRuleDimension, whichever rule comes first. With overflow checks it panics exactly when a rule whose running sum or total length leaves usize comes before any rule with an error, and otherwise returns what the text says with exact lengths. When no sum overflows both builds agree. A single number that is too large for the target is reported as InvalidRule with that number. Written rules that fit the bound are read back.", "quantifier": "all texts, all bounds, all widths of usize, both build modes", "why_tests_cant": "tests run on the machine they are built for; the panic needs sums at the limit of usize.", "anchors": ["src/puzzles/nonogram/mod.rs:parse_nonogram_rules"]}
