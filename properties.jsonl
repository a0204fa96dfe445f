{"id": "C01", "title": "Sorting only reorders the caller's points", "statement": "After xyzset::sort (and therefore after tesellate) the caller's point vector contains exactly the input points, each with its original multiplicity; no point is lost, duplicated or altered.", "quantifier": "every point set of every size, every grid resolution >= 1, every floating-point behaviour of the id computation", "why_tests_cant": "The radix passes move points through counting buckets; a permutation claim ranges over all sizes and all key distributions, which tests can only sample.", "anchors": ["src/xyzset.ipp:sort", "include/xyzset.hpp:sort"]}
{"id": "C02", "title": "Grid ids are right and ascending after sorting", "statement": "After xyzset::sort, id[i] is the grid cell of the point now stored at position i, and the id vector is non-decreasing (validate_id accepts it).", "quantifier": "every point set whose cell ids are non-negative, any size and grid resolution", "why_tests_cant": "Correctness of a multi-pass LSD radix sort depends on stability across passes for every combination of byte digits.", "anchors": ["src/xyzset.ipp:sort", "src/xyzset.ipp:validate_id", "src/xyzset.ipp:validate_sort"]}
{"id": "C03", "title": "Offset table addresses exactly each cell's points", "statement": "After xyzset::sort, offset has grid_resolution^3+1 entries, is non-decreasing, starts at 0, ends at n, and position i holds a point of cell c if and only if offset[c] <= i < offset[c+1].", "quantifier": "every point set with in-range ids, every cell c, every position i", "why_tests_cant": "The statement is an equivalence over all positions and cells for every distribution of points, including empty cells.", "anchors": ["src/xyzset.ipp:sort"]}
{"id": "C04", "title": "Sorting is stable and idempotent", "statement": "Points of the same grid cell keep their input order, and sorting an already sorted point set changes nothing, so indices in the returned neighbour lists refer to the same positions a caller gets by sorting first.", "quantifier": "every point set with non-negative ids", "why_tests_cant": "The regression test relies on it (it sorts, then calls tesellate), but stability over all inputs cannot be sampled.", "anchors": ["src/xyzset.ipp:sort", "test/regression/main.cpp:run_test"]}
{"id": "C05", "title": "Sorting is memory safe exactly when every cell id is in range", "statement": "xyzset::sort stays inside its buffers if and only if every point's computed cell id lies in [-1, grid_resolution^3) (an id of -1 corrupts the offset table but no memory); in exact arithmetic points with coordinates in [0,1) always satisfy this, and because tesellate validates after sorting, a point outside the unit box can already have corrupted memory when the validation message is printed.", "quantifier": "every point set, every grid resolution >= 1, every floating-point behaviour", "why_tests_cant": "A test that runs without crashing does not show the absence of an out-of-bounds write; the equivalence ranges over all inputs.", "anchors": ["src/xyzset.ipp:sort", "src/xyzset.ipp:validate_xyzset", "src/votess.ipp:tesellate"]}
{"id": "C06", "title": "Heap update keeps the candidate set a heap and loses nothing else", "statement": "Replacing the root of the candidate heap and sifting it down leaves exactly the other k-1 (id, distance) pairs plus the new pair, keeps each id with its own distance, and restores the max-heap order.", "quantifier": "every heap size k >= 1, every heap content, every new pair, any total order of distances", "why_tests_cant": "Sift-down correctness is an induction over unbounded heap shapes.", "anchors": ["src/heap.ipp:maxheapify", "src/heap.ipp:swap"]}
{"id": "C07", "title": "heap::sort sorts any array", "statement": "heap::sort returns the same (id, distance) pairs in non-decreasing distance order for every input array, heap-ordered or not, including size 0 and 1.", "quantifier": "every k, every array content", "why_tests_cant": "All sizes and permutations.", "anchors": ["src/heap.ipp:sort"]}
{"id": "C08", "title": "Shell search visits every grid cell exactly once", "statement": "Expanding Chebyshev shells r = 0 .. grid_resolution-1 around any home cell enumerates every cell of the grid exactly once and never leaves the grid.", "quantifier": "every grid resolution, every home cell", "why_tests_cant": "Requires all resolutions and positions, including borders where ranges are clipped.", "anchors": ["src/knn.ipp:compute", "src/knn.ipp:is_inshell"]}
{"id": "C09", "title": "k nearest neighbours are exact", "statement": "For every query point the k-nearest-neighbour search returns points sorted by distance such that no point outside the returned list is strictly closer than any returned one: early termination of the shell search never drops a nearer point.", "quantifier": "every point set in the unit box, every query point, every k >= 1, every grid resolution >= 1 (exact arithmetic)", "why_tests_cant": "The stopping test is a geometric inequality over all positions; a single missing shell only shows up for rare point placements.", "anchors": ["src/knn.ipp:compute", "src/xyzset.ipp:get_distance"]}
{"id": "C10", "title": "k nearest neighbour distances do not depend on the grid resolution", "statement": "Two searches of the same point set with different grid resolutions return the same sorted list of distances for the same query point.", "quantifier": "every point set, every query point, every k, every pair of grid resolutions (exact arithmetic)", "why_tests_cant": "A relational property over two runs and all parameters.", "anchors": ["src/knn.ipp:compute", "include/arguments.hpp:get_knn"]}
{"id": "C11", "title": "Neighbour candidates are distinct, valid and never the point itself", "statement": "If k <= n-1, the k-nearest-neighbour list of a point has k pairwise distinct entries, all in [0,n), none equal to the point itself.", "quantifier": "every point set, every query point, every 1 <= k <= n-1, every grid resolution (exact arithmetic)", "why_tests_cant": "Distinctness depends on the visit-once property and on all sentinel entries being displaced for every input.", "anchors": ["src/knn.ipp:compute"]}
{"id": "C12", "title": "Asking for more neighbours than exist is padded, not wrong", "statement": "If k > n-1, the list holds all n-1 other points first, in distance order, followed by padding entries with id 0 and infinite distance; padding never causes a wrong Voronoi neighbour in exact arithmetic when the cell is computed without an error flag.", "quantifier": "every point set with n-1 < k", "why_tests_cant": "Depends on the interplay of padding, heap sort and clipping for all inputs.", "anchors": ["src/knn.ipp:compute", "src/votess.ipp:__cpu__tesellate", "src/cc.ipp:compute"]}
{"id": "C13", "title": "Bisector plane separates nearer from farther", "statement": "The plane computed by planes::bisect for two points evaluates to zero at exactly the points equidistant from both, is positive exactly at points strictly closer to the first point and negative exactly at points strictly closer to the second.", "quantifier": "all pairs of points and all evaluation points (exact arithmetic)", "why_tests_cant": "An algebraic identity over a continuum.", "anchors": ["src/planes.ipp:bisect", "src/planes.ipp:dot"]}
{"id": "C14", "title": "Three-plane intersection is the unique common point", "statement": "planes::intersect returns the unique point on all three planes whenever their normals are linearly independent, the same point for every order and orientation of the planes, and the origin for dependent normals.", "quantifier": "all triples of planes (exact arithmetic)", "why_tests_cant": "An algebraic identity over a continuum, including the singular case.", "anchors": ["src/planes.ipp:intersect"]}
{"id": "C15", "title": "Security radius test is sound", "statement": "If the squared distance from the cell's point to a neighbour exceeds four times the accumulated radius, then no point within that radius of the cell's point is closer to that neighbour or to any farther point than to the cell's point.", "quantifier": "all points, radii and neighbours (exact arithmetic)", "why_tests_cant": "A geometric inequality over a continuum.", "anchors": ["src/sradius.ipp:update", "src/sradius.ipp:is_reached"]}
{"id": "C16", "title": "A successful boundary computation returns the boundary loop", "statement": "When boundary::compute reports success on consistently oriented triangles, the returned successor table is one simple closed loop whose directed edges are exactly the triangle edges whose reverse is not an edge of another triangle; the triangle list is only reordered.", "quantifier": "every list of non-degenerate triangles in which no directed edge repeats (and no part of which is a closed surface), every size, order and table size up to 255", "why_tests_cant": "Needs all triangulations and all orders in which triangles are attached or postponed.", "anchors": ["src/boundary.ipp:compute"]}
{"id": "C17", "title": "Boundary computation always terminates inside its buffers", "statement": "boundary::compute terminates and touches only the triangle list and the successor table given to it, and leaves an undefined entry for every vertex that is not on the loop.", "quantifier": "every list of r_size >= 1 non-degenerate triangles with vertices below dr_size <= 255 and no repeated directed edge", "why_tests_cant": "Termination and absence of out-of-bounds accesses for all inputs cannot be observed by running some.", "anchors": ["src/boundary.ipp:compute"]}
{"id": "C18", "title": "A plane limit of 256 or more breaks every multi-vertex cut", "statement": "With cc_p_maxsize >= 256, boundary::compute reports failure for every list of two or more removed vertices, whatever the triangles are, because its 8-bit scan wraps around and compares an entry with itself.", "quantifier": "every table size >= 256, every triangle list with r_size >= 2 and vertex numbers below the reserved value 255", "why_tests_cant": "Users are free to set cc_p_maxsize; the claim is that no input at all succeeds.", "anchors": ["src/boundary.ipp:compute", "src/votess.ipp:__cpu__recompute", "README.md:cc_p_maxsize"]}
{"id": "C19", "title": "Boundary loop does not depend on triangle order", "statement": "If boundary::compute succeeds on a triangle list and on a reordering of it, the two resulting successor tables are identical.", "quantifier": "every valid triangle list no part of which is a closed surface, and every permutation of it", "why_tests_cant": "Quantifies over all permutations.", "anchors": ["src/boundary.ipp:compute"]}
{"id": "C20", "title": "The cell stays a closed polyhedral surface", "statement": "At every step of a cell's computation every directed edge of the vertex triples occurs exactly once and together with its reverse, so every cell edge joins exactly two cell vertices.", "quantifier": "every sequence of neighbours, every arithmetic (including rounding), as long as a cut does not remove all vertices", "why_tests_cant": "An invariant over unboundedly many cuts.", "anchors": ["src/cc.ipp:compute", "src/boundary.ipp:compute"]}
{"id": "C21", "title": "Cell computation is memory safe for any arithmetic", "statement": "cci::compute terminates and never reads or writes outside its row of the work buffers, for any behaviour of floating-point arithmetic (rounding, infinities, NaN), provided 6 <= cc_p_maxsize <= 255, 8 <= cc_t_maxsize <= 32767, k <= 65535 and the candidate ids are valid; below these minima it does write outside its row.", "quantifier": "every point set, every candidate list, every arithmetic", "why_tests_cant": "Absence of out-of-bounds accesses under all rounding behaviours.", "anchors": ["src/cc.ipp:compute"]}
{"id": "C22", "title": "Every computed cell vertex lies in the true partial cell", "statement": "In exact arithmetic, whenever no error flag is raised, every vertex triple of the computed cell is a non-singular triple of planes whose intersection point lies in the unit box and is at least as close to the cell's point as to every candidate processed so far.", "quantifier": "every point set, every candidate sequence, every prefix of it (exact arithmetic)", "why_tests_cant": "Invariant over unbounded sequences and a continuum of positions, including degenerate (cospherical) inputs.", "anchors": ["src/cc.ipp:compute", "src/planes.ipp:intersect"]}
{"id": "C23", "title": "The computed vertices span the whole partial cell", "statement": "In exact arithmetic, whenever no error flag is raised, every point of the unit box that is at least as close to the cell's point as to all processed candidates is bounded by the computed vertices: any affine function, and the distance to the cell's point, is maximal at a computed vertex.", "quantifier": "every point set, every candidate sequence and prefix, every affine function, degenerate inputs included (exact arithmetic)", "why_tests_cant": "A completeness claim over a continuum of points, and degenerate inputs are measure zero for tests.", "anchors": ["src/cc.ipp:compute", "src/sradius.ipp:update"]}
{"id": "C24", "title": "A cell whose security radius is reached is the Voronoi cell", "statement": "If a cell is computed without error and its security radius is reached (or all other points were processed), then a point of the unit box satisfies all processed bisectors if and only if it is at least as close to the cell's point as to every point of the whole set: no unprocessed point can change the cell.", "quantifier": "every point set, every k, every grid resolution (exact arithmetic)", "why_tests_cant": "Quantifies over all points of space and all unprocessed sites.", "anchors": ["src/cc.ipp:compute", "src/sradius.ipp:is_reached", "src/knn.ipp:compute"]}
{"id": "C25", "title": "Returned neighbours are correct Voronoi neighbours", "statement": "For every such cell, each returned neighbour's Voronoi cell shares a point with this cell inside the unit box, and every site whose removal would enlarge this Voronoi cell is returned.", "quantifier": "every point set, every row of the result with no error flag and security radius reached or k >= n-1 (exact arithmetic), degenerate inputs included", "why_tests_cant": "This is the library's main contract; it ranges over all inputs, and the regression test checks random samples against voro++ only.", "anchors": ["src/votess.ipp:tesellate", "src/cc.ipp:compute", "README.md:class dnn"]}
{"id": "C26", "title": "In general position the neighbour relation is exact and symmetric", "statement": "If no four of the planes bounding candidate cells meet in a point, then for completed cells j is in the list of i if and only if the Voronoi cells of i and j touch inside the unit box, hence j is in the list of i if and only if i is in the list of j.", "quantifier": "every point set in general position, every pair of completed rows (exact arithmetic)", "why_tests_cant": "Relational property over pairs of independently computed cells.", "anchors": ["src/votess.ipp:tesellate", "src/dnn.ipp:operator[]"]}
{"id": "C27", "title": "No spurious boundary failure in exact arithmetic", "statement": "In exact arithmetic the error flag for an infinite boundary is never raised: the removed vertices of a convex cell always form a disc that the loop construction can absorb in any order.", "quantifier": "every point set and every candidate sequence (exact arithmetic)", "why_tests_cant": "A liveness claim over all convex cells and all processing orders.", "anchors": ["src/cc.ipp:compute", "src/boundary.ipp:compute"]}
{"id": "C28", "title": "Vertex capacity is bounded by plane capacity", "statement": "A cell with P stored planes never has more than 2P-4 vertices, so with cc_t_maxsize >= 2*cc_p_maxsize-4, or cc_t_maxsize >= 2*k+8, the vertex-overflow flag can never be raised.", "quantifier": "every input, every arithmetic", "why_tests_cant": "A bound over all runs.", "anchors": ["src/cc.ipp:compute", "include/arguments.hpp:ARGS_DEFAULT_T_MAXSIZE"]}
{"id": "C29", "title": "Status flags after a cell computation mean what they say", "statement": "Starting from a cleared state, after cci::compute at most one of {plane overflow, vertex overflow, infinite boundary} is set, 'error occurred' is set exactly with 'infinite boundary', 'nonvalid neighbour' and 'nonvalid vertices' are never set, and 'security radius reached' is never set together with an error.", "quantifier": "every input, every arithmetic", "why_tests_cant": "Requires all paths of the loop.", "anchors": ["src/cc.ipp:compute", "src/status.ipp", "include/status.hpp"]}
{"id": "C30", "title": "A failed cell returns its unfiltered candidate list", "statement": "If a cell raises plane overflow, vertex overflow or infinite boundary, its returned row is the complete k-nearest-neighbour list, not a Voronoi neighbour list.", "quantifier": "every input, every arithmetic", "why_tests_cant": "A user must know which rows are unusable; holds on every error path.", "anchors": ["src/cc.ipp:compute", "src/votess.ipp:tmpnn_fill"]}
{"id": "C31", "title": "Result rows are sub-lists of the candidates, nearest first", "statement": "Every result row is an order-preserving sub-list of the point's k-nearest-neighbour list, contains no sentinel value, and has at most k entries.", "quantifier": "every input, every arithmetic", "why_tests_cant": "Quantifies over all rows of all runs.", "anchors": ["src/cc.ipp:compute", "src/votess.ipp:tmpnn_fill", "src/votess.ipp:tmpnn_getdnn"]}
{"id": "C32", "title": "Chunking does not change the CPU result", "statement": "With the CPU backend, the returned rows are the same for every use_chunking/chunksize setting; every point is processed in exactly one chunk, also when chunksize divides n (empty last chunk), exceeds n, or is zero or negative.", "quantifier": "every n, every chunksize (any int), every point set, every arithmetic", "why_tests_cant": "Boundary arithmetic over all (n, chunksize) pairs.", "anchors": ["src/votess.ipp:__cpu__tesellate"]}
{"id": "C33", "title": "Thread count does not change the CPU result", "statement": "The per-thread index ranges of the CPU backend are pairwise disjoint, cover every index of the chunk, and stay inside the allocated buffers, although the range size of a shorter last chunk is computed from the previous chunk's size; so the result is the same for every positive thread count.", "quantifier": "every chunk size, every previous chunk size, every thread count >= 1", "why_tests_cant": "All combinations; stale sizes only matter for rare combinations.", "anchors": ["src/votess.ipp:__cpu__tesellate", "src/votess.ipp:__cpu__recompute"]}
{"id": "C34", "title": "CPU worker threads are race free and schedule independent", "statement": "No two worker threads access the same memory cell with at least one write, and every interleaving of their individual memory accesses ends in the same memory contents as running the tasks one after the other.", "quantifier": "every schedule, every number of threads, every point set, every arithmetic, buffer sizes within the documented minima", "why_tests_cant": "Schedules cannot be enumerated by tests.", "anchors": ["src/votess.ipp:__cpu__tesellate", "src/votess.ipp:__cpu__recompute", "src/knn.ipp:compute", "src/cc.ipp:compute"]}
{"id": "C35", "title": "Recompute terminates", "statement": "The recompute pass finishes after at most about log2(n) rounds: k strictly grows every round until it reaches n-1.", "quantifier": "every n >= 2, every initial k >= 1, every behaviour of the cell computation", "why_tests_cant": "Termination over all histories of success and failure.", "anchors": ["src/votess.ipp:__cpu__recompute"]}
{"id": "C36", "title": "Recompute never touches completed rows", "statement": "A row whose cell reached its security radius before recompute is returned unchanged, and a row that reaches it during recompute is not changed by later rounds.", "quantifier": "every input, every history of rounds", "why_tests_cant": "Frame property over histories.", "anchors": ["src/votess.ipp:__cpu__recompute", "src/votess.ipp:tmpnn_fill"]}
{"id": "C37", "title": "What recompute guarantees", "statement": "README: use_recompute 'will ensure all points are valid voronoi cells'. Precisely: after recompute every row either reached its security radius, or was recomputed with k >= n-1; in the latter case it is correct unless that last round raised an error flag.", "quantifier": "every input, every history of rounds", "why_tests_cant": "The documented guarantee fails only on inputs that overflow in the last round; tests do not hit it.", "anchors": ["src/votess.ipp:__cpu__recompute", "README.md:use_recompute"]}
{"id": "C38", "title": "Recompute needs at least two points and k at least one", "statement": "With use_recompute, a point set of a single point (whose cell can never reach the security radius) makes recompute set k = 0 and read an empty buffer; likewise k = 0 reads an empty buffer in the first pass.", "quantifier": "every single-point set; every point set with k = 0", "why_tests_cant": "Out-of-bounds read is silent in tests.", "anchors": ["src/votess.ipp:__cpu__recompute", "src/knn.ipp:compute"]}
{"id": "C39", "title": "Diagnostic counters", "statement": "Without recompute the printed counters equal the number of cells with the corresponding flag; with recompute the flags of all cells are cleared at the start of the last round, so a run that finished every cell reports all n cells as failed.", "quantifier": "every input", "why_tests_cant": "Needs the whole history of states.", "anchors": ["src/votess.ipp:tesellate", "src/votess.ipp:__cpu__recompute"]}
{"id": "C40", "title": "The result container is a faithful jagged array", "statement": "The returned dnn object has n rows; dnn[i].size() and dnn[i][j] give exactly the i-th row that was computed, for every i and j in range; offsets start at 0, are non-decreasing and end at the list length.", "quantifier": "every jagged array, every row and column index", "why_tests_cant": "Indexing arithmetic over all shapes, including empty rows and the last row.", "anchors": ["src/votess.ipp:tmpnn_getdnn", "src/dnn.ipp:proxy", "src/dnn.ipp:size"]}
{"id": "C41", "title": "Text output reproduces the rows if no row is empty", "statement": "print and savetxt write the rows in order, one line per row, whenever no row except possibly the first is empty; a later empty row is dropped and all rows after it are merged into one line.", "quantifier": "every jagged array without empty rows after the first; a witness for the failure", "why_tests_cant": "All shapes.", "anchors": ["src/dnn.ipp:savetxt", "src/dnn.ipp:print"]}
{"id": "C42", "title": "vtargs behaves as a fixed-key map", "statement": "Assigning a parameter changes that parameter only; reading returns the last assigned value or the default; the set of accepted keys never changes and any other key throws, for reads and for writes.", "quantifier": "every sequence of assignments, every key", "why_tests_cant": "All operation histories.", "anchors": ["include/arguments.hpp:vtargs"]}
{"id": "C43", "title": "Parameter values survive the string round trip", "statement": "An int or bool stored in a parameter is read back unchanged as int (bool as 0/1), an int outside {0,1} read as bool throws, text without a leading number read as int throws, and a decimal fraction read as int is truncated silently.", "quantifier": "every int, every bool, every string", "why_tests_cant": "All values.", "anchors": ["include/arguments.hpp:vtargref"]}
{"id": "C44", "title": "The caller's parameters are never modified", "statement": "tesellate receives vtargs by value; the k, cc_p_maxsize and cc_t_maxsize changes made by recompute are not visible to the caller, on no path (return, exception, or recompute); and although recompute passes these values on as text, the call computes what it would with the numbers themselves, or a size overflows int.", "quantifier": "every input, every content of every parameter object, any arithmetic", "why_tests_cant": "Needs every path through recompute.", "anchors": ["src/votess.ipp:tesellate", "src/votess.ipp:__cpu__recompute"]}
{"id": "C45", "title": "Command line parsing", "statement": "For every sequence of options, each parameter takes the value of its last occurrence and options for different parameters commute; the program reports failure exactly when no input file is given, the file cannot be opened, or some line does not start with three numbers; and the device option never influences the computation.", "quantifier": "every option sequence and every input file", "why_tests_cant": "All orders and repetitions of options.", "anchors": ["src/main.cpp:parse_args", "src/main.cpp:main"]}
{"id": "C46", "title": "Status bits are independent", "statement": "Setting or clearing one status flag changes that flag only; get returns the last set or cleared value; reset clears all.", "quantifier": "every sequence of set_true, set_false and reset over all flags", "why_tests_cant": "All operation histories.", "anchors": ["src/status.ipp", "include/status.hpp"]}
{"id": "C47", "title": "GPU neighbour search equals the CPU search", "statement": "With in-range parameters (grid resolution <= 255, k <= 65535) and squared distances below 128, the branch-free device search performs the same updates as the CPU search and yields the same neighbour lists.", "quantifier": "every point set in the unit box, every query, every k and grid resolution within limits (exact arithmetic)", "why_tests_cant": "Equivalence of two implementations for all inputs.", "anchors": ["src/knn.ipp:compute", "src/heap.ipp", "src/utils.ipp"]}
{"id": "C48", "title": "GPU cell computation equals the CPU one", "statement": "The device variants of the boundary and cell computation produce the same status, neighbour row and successor table as the CPU variants as long as fewer than 255 vertices are removed by one cut.", "quantifier": "every input within limits, every arithmetic", "why_tests_cant": "Equivalence of two implementations for all inputs.", "anchors": ["src/cc.ipp:compute", "src/boundary.ipp:compute"]}
{"id": "C49", "title": "GPU chunking reads the right coordinates", "statement": "The device kernels must read the coordinates of the point they process; without chunking they do, with chunking the chunk size is used as the stride of the full coordinate array and wrong coordinates are read.", "quantifier": "every n, index and chunk size", "why_tests_cant": "Stride error depends on all (n, chunksize, index).", "anchors": ["src/votess.ipp:__gpu__tesellate", "src/knn.ipp:compute", "src/cc.ipp:compute"]}
{"id": "C50", "title": "Branch-free selections", "statement": "utils::bmax/bmin (two and three arguments) equal the maximum and minimum, and the multiply-by-condition selections equal ordinary conditionals, for all finite values.", "quantifier": "all values (exact arithmetic)", "why_tests_cant": "Continuum of values.", "anchors": ["src/utils.ipp:bmax", "src/utils.ipp:bmin", "src/knn.ipp:compute", "src/sradius.ipp:update"]}
{"id": "C51", "title": "Buffer sizes computed in 32-bit int", "statement": "The buffer sizes subsize*k, subsize*p_maxsize*4 and subsize*t_maxsize*3 and the cell count grid_resolution^3 are computed in 32-bit int; they are exact whenever the mathematical value fits and overflow (undefined behaviour) otherwise, e.g. for more than 2^24-1 points with default sizes and no chunking.", "quantifier": "every n, k, p_maxsize, t_maxsize, grid resolution", "why_tests_cant": "Tests cannot allocate such sizes.", "anchors": ["src/votess.ipp:__cpu__tesellate", "src/xyzset.ipp:sort"]}
{"id": "C52", "title": "Standard output is always restored", "statement": "Whatever happens inside tesellate, including exceptions, std::cout writes to its original buffer again when tesellate returns or throws.", "quantifier": "every execution path", "why_tests_cant": "All exits.", "anchors": ["src/votess.ipp:suppress::stdout", "src/votess.ipp:tesellate"]}
{"id": "C53", "title": "Result does not depend on tuning parameters", "statement": "For point sets in general position, rows of completed cells are the same sets of points for every k, grid resolution, chunk size, thread count, buffer size and for every order of the input points.", "quantifier": "every pair of parameter settings and every permutation of the input (exact arithmetic, general position)", "why_tests_cant": "Relational property over pairs of runs.", "anchors": ["src/votess.ipp:tesellate"]}
{"id": "C54", "title": "Each point lies in its own cell", "statement": "In exact arithmetic, for points of the open unit box, the computed cell of a point contains the point itself and is never emptied by clipping.", "quantifier": "every point set and candidate sequence (exact arithmetic), coincident points included", "why_tests_cant": "Invariant over unbounded sequences.", "anchors": ["src/cc.ipp:compute"]}
{"id": "C55", "title": "What the validation messages mean", "statement": "validate_xyzset accepts exactly the point sets whose coordinates all lie strictly between 0 and 1 (so a harmless coordinate 0 is reported too); validate_sort accepts exactly when every id is the grid cell of its point and always accepts the result of sort; tesellate prints oops1 exactly in the first case and never oops2 for in-range cells.", "quantifier": "every point set (exact arithmetic), every parameter setting", "why_tests_cant": "An equivalence over all point sets.", "anchors": ["src/xyzset.ipp:validate_xyzset", "src/xyzset.ipp:validate_sort", "src/xyzset.ipp:validate_id", "src/votess.ipp:tesellate"]}
{"id": "C56", "title": "A GPU call returns what the CPU call returns", "statement": "Without chunking, for every content of uninitialised device memory and every schedule of the work items, a launch is free of data races and out-of-bounds accesses and ends with the neighbour table of the CPU call; without recompute the GPU call returns the same points, table and warnings.", "quantifier": "every point set in the unit box, all sizes within limits, every schedule, every memory content (exact arithmetic)", "why_tests_cant": "All interleavings of all work items and all contents of uninitialised memory.", "anchors": ["src/votess.ipp:__gpu__tesellate", "src/votess.ipp:tesellate", "src/knn.ipp:compute", "src/cc.ipp:compute"]}
{"id": "C57", "title": "GPU status bytes are not initialised", "statement": "The status bytes of a GPU call are the CPU ones plus whatever flags uninitialised memory contained (only two of the seven flags are ever cleared), so the report may count no unreached radius and overflows everywhere, and recompute may skip every cell.", "quantifier": "every point set in the unit box (exact arithmetic), every memory content", "why_tests_cant": "Uninitialised memory is usually zero in tests.", "anchors": ["src/votess.ipp:__gpu__tesellate", "src/cc.ipp:compute", "src/votess.ipp:__cpu__recompute"]}
{"id": "C58", "title": "Work-group size must divide every launch", "statement": "A GPU call has a result only if gpu_ndsize divides the number of points of every run: the number of points without chunking, the chunk size and the remainder with chunking. Without chunking this suffices.", "quantifier": "every n, chunk size and gpu_ndsize", "why_tests_cant": "All combinations of three sizes.", "anchors": ["src/votess.ipp:__gpu__tesellate"]}
{"id": "C59", "title": "Fallback without GPU", "statement": "When no GPU device is found, a GPU call does exactly what a CPU call does.", "quantifier": "every input, any arithmetic", "why_tests_cant": "Equality of two calls for all inputs.", "anchors": ["src/votess.ipp:tesellate", "src/votess.ipp:device_found"]}
{"id": "C60", "title": "Rows and numbers refer to the points in grid order", "statement": "The command line program prints one line per point in the order of the points after sorting by grid cell, with neighbours numbered in that order; the sorted points are not printed, so unless the file lists the points in ascending cell order the numbers do not refer to the lines of the file.", "quantifier": "every input file and argument list (exact arithmetic)", "why_tests_cant": "A test file whose points are already in cell order hides it.", "anchors": ["src/main.cpp:main", "src/votess.ipp:tesellate", "src/xyzset.ipp:sort"]}
{"id": "C61", "title": "Parameters given as floating point or Python values", "statement": "A whole number below 10^6 assigned to a parameter as float or double is read back unchanged as int; from 10^6 on it is read back as its leading digit. From Python, ints in the range of C++ int and bools assigned to a known key are read back and touch no other key; every other assignment raises an exception and changes nothing.", "quantifier": "every whole number, every key, every Python value, every content of the parameter object", "why_tests_cant": "Tests use small numbers; the loss starts at 10^6.", "anchors": ["include/arguments.hpp:vtargref", "src/pybind11/pyvotess.cpp:__setitem__"]}
{"id": "C62", "title": "Rows of the result in Python", "statement": "d[i][j] is neighbour j of point i for j inside the row; past the end it is a neighbour of a later point, after the last row it is undefined, a negative j counts back into the rows of earlier points, and `for x in d[i]` never stops at the end of the row.", "quantifier": "every neighbour table, every i and j in range of int", "why_tests_cant": "Quantifies over all tables; reading past a row usually gives a plausible number.", "anchors": ["src/pybind11/pyvotess.cpp:__getitem__", "src/dnn.ipp:proxy"]}
{"id": "C63", "title": "Rows in Python refer to the points in grid order", "statement": "The Python call leaves the caller's list as it is, so its rows belong to the caller's points only if these are listed in ascending order of their grid cells; then row i is right for point i, otherwise it need not be.", "quantifier": "every point list (exact arithmetic)", "why_tests_cant": "Test point sets that are in cell order hide it.", "anchors": ["src/pybind11/pyvotess.cpp:tesellate", "src/xyzset.ipp:sort"]}
{"id": "C64", "title": "Enough room guarantees a correct tessellation", "statement": "With k >= n-1 candidates, room for k+6 planes and 2*k+8 vertices, a call never reports an error and every returned row is correct; with use_recompute any k >= 1 will do as long as there is room for n+5 planes and 2*n+6 vertices (and k+6, 2*k+8).", "quantifier": "every point set in the unit box, every grid resolution, thread count and chunk size (exact arithmetic); no condition on what happens during the run", "why_tests_cant": "The claim excludes every failure of every cell for all point sets; tests only see the point sets they contain.", "anchors": ["src/cc.ipp:compute", "src/votess.ipp:__cpu__tesellate", "src/votess.ipp:__cpu__recompute", "src/boundary.ipp:compute", "README.md"]}
{"id": "C65", "title": "Single precision grid cells", "statement": "In float arithmetic every point with coordinates in [0, 1-2^-23] gets a grid cell in range for every resolution from 1 to 1290, so a call with such points does nothing undefined; for the largest float below 1 this fails for exactly 358 of the 1290 resolutions (25, 31, 41, 47, 50, ..., 100, 200, ...), where a point in the unit box makes the call write outside the cell table or files the point under a wrong cell.", "quantifier": "every finite float coordinate, every grid resolution up to 1290, every parameter set in range", "why_tests_cant": "Needs the one coordinate value next to 1 together with particular resolutions; random tests practically never contain it.", "anchors": ["src/xyzset.ipp:get_id", "src/xyzset.ipp:sort"]}
{"id": "C66", "title": "Nearest neighbour search in single precision", "statement": "In float arithmetic the k-nearest search returns k different other points ordered by computed distance, and no point left out is closer than a returned one by more than 2^-19 (box side 1); exactness fails by rounding, and with a point filed under a wrong cell (C65) the nearest neighbour can be wrong by a factor 2.", "quantifier": "every set of float points in the safe range, every resolution up to 1290, every k", "why_tests_cant": "Rounding in the early exit test and in the distances can drop a neighbour for rare point sets only.", "anchors": ["src/knn.ipp:compute", "src/xyzset.ipp:get_distance"]}
{"id": "C67", "title": "The tessellation in single precision", "statement": "For points that are not nearly degenerate (explicit margins on distances, corners and the security radius) rounding makes no difference: a call in float arithmetic with fewer candidates than points returns for every point exactly the points whose true Voronoi cells touch its own, whenever the report is clean, and always if there is enough room (with or without recompute); no infinite boundary is ever reported.", "quantifier": "every set of points in the safe range with margins, every resolution up to 1290, every k < n, thread count and chunk size", "why_tests_cant": "Rounding errors propagate through planes, vertices, cuts and the security radius; tests compare with other float programs on a few point sets.", "anchors": ["src/cc.ipp:compute", "src/votess.ipp:__cpu__tesellate", "src/knn.ipp:compute"]}
{"id": "C68", "title": "Limits of single precision", "statement": "The conditions of C67 are needed: in float arithmetic, unlike in exact arithmetic, a call without any reported problem can list a neighbour twice (more candidates than other points, two points in eighths) or leave out a true neighbour (three well separated, nearly degenerate points), and an infinite boundary can be reported (two points in eighths with padding; four points with coordinates 1/3 and 2/3).", "quantifier": "existence of inputs, for every hardware thread count", "why_tests_cant": "The rows in question look plausible and no flag is raised; only a comparison with the exact cell shows the error.", "anchors": ["src/cc.ipp:compute", "src/planes.ipp:intersect", "src/knn.ipp:compute", "src/boundary.ipp:compute"]}
{"id": "C69", "title": "Calls on a GPU in single precision", "statement": "In float arithmetic too, the branch-free device search with its start value 128 finds the neighbours the CPU search finds, in the same order and with the same distances; a GPU call without chunking and recompute returns what the CPU call returns, however the work items are scheduled; and for points with margins and enough room that is the exact tessellation.", "quantifier": "every set of float points in the safe range, every resolution up to 255, every k below 65536, every schedule and every content of uninitialised memory", "why_tests_cant": "The device code computes 'cond*a + !cond*b' on floats instead of assigning, and compares against 128 instead of infinity; schedules cannot be enumerated.", "anchors": ["src/knn.ipp:compute (device)", "src/votess.ipp:__gpu__tesellate", "src/cc.ipp:compute"]}
{"id": "C70", "title": "Single precision agrees with exact arithmetic", "statement": "For points with margins and enough room the neighbour relation a call in float arithmetic returns is symmetric, is the same for every grid resolution, thread count, chunk size and order of the points, and is the one the same program returns in exact arithmetic.", "quantifier": "every set of points in the safe range with margins, every two parameter sets with room", "why_tests_cant": "Tests compare runs on a few point sets; exact arithmetic cannot be run in the C++ code.", "anchors": ["src/votess.ipp:tesellate", "src/cc.ipp:compute"]}
{"id": "C71", "title": "Rounding the input coordinates does not change the tessellation", "statement": "When the coordinates the caller has are not floats (decimal numbers of a file, doubles of a numpy array) and are rounded to float on input, and the points have twice the margins, the rows a call returns are those of the unrounded points: every row determines the Voronoi cell of its unrounded point, names exactly the unrounded points whose cells touch it, and no error is reported; with recompute, and on the GPU, too; and the same rows come out of exact arithmetic on the unrounded points.", "quantifier": "every set of rational points in the unit cube up to 1 - 2^-22 with two-fold margins, every parameter set with room", "why_tests_cant": "Tests compare against a reference on the rounded points or not at all; the effect of rounding on the combinatorics is a statement about all inputs near a degenerate one.", "anchors": ["src/main.cpp:main", "src/pybind11/pyvotess.cpp", "src/votess.ipp:tesellate", "src/cc.ipp:compute"]}
{"id": "C72", "title": "Numbers of the input file are read as the nearest float", "statement": "The text of a number in the input file (optional sign, digits with an optional point, optional exponent, after white space) is read as the float nearest to the decimal number it stands for, and reading stops right after it; everything that is read is such a number; reading fails exactly when there is none or it is too large for float.", "quantifier": "every text, every numeral", "why_tests_cant": "Tests read a few literals; the claim is about every decimal text and every float.", "anchors": ["src/main.cpp:main"]}
{"id": "C73", "title": "The text of the result can be read back", "statement": "print writes one line {i, j, } per row between braces, savetxt one line of numbers per row; the numbers of line i of the saved file, read as integers, are row i.", "quantifier": "every table of non-empty rows without sentinel values", "why_tests_cant": "The layout depends on every row; separators are written with a look-ahead into the next row.", "anchors": ["src/dnn.ipp:print", "src/dnn.ipp:savetxt"]}
{"id": "C74", "title": "The program in single precision, from the text of the file to the printed text", "statement": "When the numbers in the file are coordinates of points with margins and the options give room (all other points as candidates, or recompute), the program returns 0 and prints one line per point, in grid order: line i lists exactly the points whose Voronoi cells touch the cell of point i, for the decimal points as written in the file. If the file is in grid order, line i is about line i of the file. With -k 0 and fewer than 65 points this can fail: the number of candidates is then the number of points and a point can be listed twice.", "quantifier": "every text of a file, every command line with options in range, every set of points with margins", "why_tests_cant": "The chain text -> float -> grid order -> float geometry -> text is never compared with the geometry of the decimal numbers in the file.", "anchors": ["src/main.cpp:main", "src/votess.ipp:tesellate", "src/dnn.ipp:print"]}
{"id": "C75", "title": "Fused multiply-add and inexact device division do not change the tessellation", "statement": "A compiler may contract a*b+c to one operation with a single rounding, at any place and with either of two products (GCC, Clang and GPU compilers do by default where the hardware has the instruction; the build files do not forbid it), and a device may compute the reciprocal of a triple product with an error of 2.5 units in the last place (OpenCL and SYCL allow it). For points with two-fold margins and enough room every such build returns exactly the points whose true Voronoi cells touch, on the CPU with or without recompute and on the GPU, and any two builds find the same neighbours. Without margins the result does depend on the decisions: for four points with coordinates 1/3 and 2/3 a row has two or three entries.", "quantifier": "every function that decides which product of an addition is fused, every choice of quotients within the allowed error, every set of rational points with two-fold margins, every parameter set with room", "why_tests_cant": "A test suite runs one build; the claim is about every compiler's choice at every operation.", "anchors": ["cmake/compiler_settings.cmake", "src/planes.ipp", "src/cc.ipp:compute", "src/knn.ipp:compute", "src/xyzset.ipp:get_distance"]}
{"id": "C76", "title": "Double precision coordinates: cells and search", "statement": "tesellate<int, double> is usable through the template interface, but 1.0f / gr and, in the CPU search, gl / 2 and gl * r stay float expressions. Every coordinate between 0 and 1 - 2^-23 gets a cell in range for every grid; all doubles in [0,1) do exactly if 1.0f / gr is not rounded down; otherwise (585 of the first 1290 grids, more than for float) a coordinate 1 - 2^-53 passes the validation and the sort writes outside its buffer. For safe coordinates a call does nothing undefined. The CPU search is not exact up to the rounding of double: it can return a neighbour further away by more than 2^-29, because gl * r was rounded up in float; the GPU search, where gl is a double, finds the right one.", "quantifier": "every grid resolution up to 2^24, every point set, every parameter set; concrete witnesses for the negative parts", "why_tests_cant": "The float sub-expressions only show for coordinates that need more than 24 bits and for particular grid resolutions; no test uses double coordinates.", "anchors": ["src/xyzset.ipp:sort", "src/knn.ipp:51", "src/knn.ipp:117", "src/knn.ipp:251", "include/votess.hpp:tesellate"]}
{"id": "C77", "title": "Double precision tessellation is exact for nearly degenerate points", "statement": "tesellate<int, double> on points whose coordinates are rounded to double: if the points keep a distance from degenerate situations that is 2^-29 of the one needed for float, and the points left out of the candidates of a point are as clearly farther than the candidates that matter as float needs (nothing is left out if all other points are candidates), then a call returns exactly the rows of the true Voronoi cells of the points as given, under the same conditions on sizes or report as for float; with recompute any number of candidates will do. On the GPU the condition on distances is not needed and any contraction to fused multiply-add is allowed. Points with the margins of float have the same neighbours in both types. For the three points of C68 the float call silently omits a neighbour and the double call is right.", "quantifier": "every point set with the margins, every parameter set within the size limits, every thread count, every GPU execution, every fused multiply-add decision on the GPU", "why_tests_cant": "No test uses double coordinates; which nearly degenerate sets are resolved is a statement about rounding errors of all intermediate results.", "anchors": ["include/votess.hpp:tesellate", "src/votess.ipp:tesellate", "src/knn.ipp:compute", "src/cc.ipp:compute", "src/planes.ipp:intersect"]}
{"id": "C78", "title": "Nearly degenerate points elsewhere do no harm", "statement": "In rounded arithmetic the row of a point is exact as soon as this point itself keeps its distance from degenerate situations, and this concerns only the points that matter for its cell (those not beyond twice the reach of the cell cut out by closer points, and one more). All other points may coincide, lie on a sphere or a lattice. They may also be moved, removed or added, as long as they stay away: the row lists the same points. Holds for float with any fused multiply-add, with recompute, on the GPU, and for double with its smaller margins.", "quantifier": "every set of points in the input range, every point of it with margins, every parameter set with room (or a report without unreached security radius, or recompute), every GPU execution; for the locality statement every two point sets that agree near the point", "why_tests_cant": "Which points of a set are safe although others are degenerate cannot be read off tests of whole sets; influence of far points has to be excluded for all far points.", "anchors": ["include/votess.hpp:tesellate", "src/votess.ipp:tesellate", "src/knn.ipp:compute", "src/cc.ipp:compute", "src/planes.ipp:intersect"]}
{"id": "C79", "title": "Calls from Python in single precision", "statement": "Python numbers are doubles, the module stores floats: a decimal coordinate is rounded twice. For points with slightly more than two-fold margins, and parameters that suffice (all other points as candidates, recompute, or enough candidates, and room), tesellate() on either device gives a table with one row per point whose rows, read through d[i].size() and d[i][j], list exactly the points whose Voronoi cells touch, for the decimal points as written. If the stored points are in grid order (always with resolution 1), row i is about point i of the caller's list. Without recompute a call on the GPU has a result if the work group size divides the number of points.", "quantifier": "every list of up to 8 million decimal points with margins, every parameter object, either device, GPU present or not, every fused multiply-add decision", "why_tests_cant": "Double rounding and the grid order are invisible in tests that compare with the module itself.", "anchors": ["src/pybind11/pyvotess.cpp:tesellate", "src/votess.ipp:tesellate", "src/pybind11/pyvotess.cpp:__getitem__"]}
{"id": "C80", "title": "The examples of the README", "statement": "The ten points of the README examples have the margins, and the parameters given there leave enough room: the Python example gets ten rows, row i listing exactly the points whose Voronoi cells touch that of point i, and the C++ example the same for its sorted vector.", "quantifier": "every build (fused multiply-add decision), every device, every number of processors", "why_tests_cant": "A run shows the result of one build on one machine, and there is no reference result.", "anchors": ["README.md", "src/pybind11/pyvotess.cpp:tesellate", "include/arguments.hpp:vtargs"]}
{"id": "C81", "title": "Enough candidates in principle are enough in practice", "statement": "Say k candidates are enough for a point if one of its k nearest points is beyond the cell cut out by the closer ones (every point of that cell is nearer to the given point than half its distance). If there is room for k candidates, the security radius of such a point is reached and its row is correct; without ties it is reached only then. So the report shows no unreached security radius if and only if k candidates are enough for all points: no false alarm and no false assurance. Holds in exact arithmetic, and for points with margins in float with any fused multiply-add, in double, and on the GPU.", "quantifier": "every point set in the unit box, every k below the number of points, every parameter set with room; no condition on the run", "why_tests_cant": "Tests see some k on some point sets; the equivalence is about every point set and every k.", "anchors": ["src/cc.ipp:compute", "src/votess.ipp:__cpu__tesellate", "src/votess.ipp:__gpu__tesellate"]}
{"id": "C82", "title": "Points close together in single precision", "statement": "Rounding errors of the planes between close points are small, so the distance from degenerate situations that float needs shrinks with the distances between the points: with margins measured in that way every call of C67, C71, C74, C75, C77, C78, C79 and C81 is exact, also for points that are close together. In particular two points are listed as each other's only neighbour if no corner of the box is nearly as far from the one as from the other. The margins are met by four points in a cube of edge length 1/150; margins that do not depend on the distances would have to be 200 times smaller than what float needs to be met there.", "quantifier": "every pair of points with coordinates in [0, 1 - 2^-22], every build, grid, thread count and parameter set with room; every set of points with margins", "why_tests_cant": "Test points are spread over the box; what happens in dense regions depends on rounding errors relative to the distances.", "anchors": ["src/cc.ipp:compute", "src/planes.ipp", "src/knn.ipp:compute"]}
{"id": "C83", "title": "Flushing denormal numbers to zero does not change the tessellation", "statement": "Devices and processor modes may replace denormal numbers by zero (SYCL devices need not support denormals; some compilers switch on such a mode at program start). For points with two-fold margins and enough room a call in which every denormal result and every denormal coordinate is replaced by zero returns exactly the points whose true Voronoi cells touch: on the CPU with or without recompute, with few candidates if they are enough, and on the GPU in float or double, whatever is contracted to fused multiply-add. It finds the same neighbours as a program that does not flush. A host that does not flush sorts the points in the same way, so host and device may differ. Without margins flushing matters: for three points at distances of 2^-66 the nearest neighbour is missing from a row with flushing and present without.", "quantifier": "every set of rational points with two-fold margins, every parameter set with room, every fused multiply-add decision, every GPU execution; a concrete witness for the negative part", "why_tests_cant": "Whether results are flushed depends on device, compiler and options; a test runs in one mode.", "anchors": ["src/planes.ipp", "src/cc.ipp:compute", "src/knn.ipp:compute", "src/xyzset.ipp:sort", "cmake/compiler_settings.cmake"]}
{"id": "C84", "title": "Walking along the rows finds the nearest point", "statement": "When the rows are correct, a walk that starts at any point and always moves to a listed neighbour closer to a given location of the box can only stop at a point nearest to the location; it takes fewer steps than there are points. So from every point every other one is reached by way of listed neighbours, no row is empty if there are two different points, two points that are alone in the ball between them list each other, and every point lists its nearest points; in exact arithmetic the entries of a row are in the order of distance, and the first one is a nearest point. With too few candidates (and unreached security radii reported) the rows can fall apart into groups that do not know of each other.", "quantifier": "every point set in the unit box with clean report, or enough room, or recompute (exact arithmetic); with margins in float, with fused multiply-add, flushing, double coordinates and on the GPU; every location, every start", "why_tests_cant": "A statement about all walks to all locations; tests look at single rows.", "anchors": ["src/votess.ipp:tesellate", "src/dnn.ipp:proxy", "src/cc.ipp:compute", "src/knn.ipp:compute"]}
{"id": "C85", "title": "The rows and the Delaunay triangulation", "statement": "When the rows are correct, every listed neighbour is a Delaunay neighbour: a ball with its centre in the box has both points on its surface and no point inside. Every point that shares such a ball with the point alone is listed; in general position (or with margins) the rows are exactly the pairs with such balls. The centre has to be in the box: a Delaunay neighbour of the whole space whose balls all have their centres outside is not listed, even though the call reports no error.", "quantifier": "every point set in the unit box with clean report, or enough room, or recompute (exact arithmetic); with margins in float, with fused multiply-add and flushing, double coordinates and on the GPU; a concrete counterexample for the unbounded triangulation", "why_tests_cant": "Users compare the rows with a Delaunay library; tests on a few sets do not show where the two differ.", "anchors": ["src/cc.ipp:compute", "src/votess.ipp:tesellate", "README.md"]}
{"id": "C86", "title": "Exchanging or reflecting axes", "statement": "Cell numbers, the order of the shells and the initial box treat the axes differently, but the neighbours found do not depend on them: when the coordinates of all points are subjected to a rotation or reflection of the unit box, the call returns the images of the same neighbours, also with other parameters.", "quantifier": "all 48 symmetries of the box, every point set: exact arithmetic with clean reports in general position; with margins (which are shown to be invariant) in float, with fused multiply-add and flushing, double coordinates and on the GPU", "why_tests_cant": "Needs pairs of runs for all inputs; a mistake in one axis shows only for some sets.", "anchors": ["src/xyzset.ipp:sort", "src/knn.ipp:compute", "src/cc.ipp:compute"]}
{"id": "C87", "title": "Sizes that are too small do not go unnoticed", "statement": "A row has at most k entries, and at most p_maxsize - 6 unless the cell failed, whatever the arithmetic. So if some point has more neighbours than that (points that share a ball about a location of the box with it alone), the report of the call says that not all security radii were reached; and if all other points were candidates, it also reports a failed cell.", "quantifier": "any arithmetic for the sizes of rows; every point set without recompute in exact arithmetic, and with margins in float for the report", "why_tests_cant": "A test with a set that happens to fit says nothing about sets that do not.", "anchors": ["src/cc.ipp:compute", "src/votess.ipp:tesellate", "include/status.hpp"]}
{"id": "C88", "title": "Adding points", "statement": "When points are added to a set, the row of an old point is the same set of neighbours as before unless one of the added points is listed in it. So the second result tells which rows of the first one are still valid; the two calls may have different parameters.", "quantifier": "every pair of sets with one containing the other: exact arithmetic with clean reports in general position; with margins in float, with fused multiply-add and flushing, double coordinates and on the GPU", "why_tests_cant": "A relation between two runs, for all added points.", "anchors": ["src/votess.ipp:tesellate", "src/cc.ipp:compute"]}
{"id": "C89", "title": "All ways to compute a tessellation agree", "statement": "The same points can be given to a program compiled for float or double, with or without fused multiply-adds and denormal numbers, on the CPU or a GPU, or through Python, each with its own parameters, number of processors and work-group size. Any two of these calls find the same neighbours of every point; if they return the points in the same order, the rows have the same entries.", "quantifier": "every point set with margins a little above those of C71, every pair of calls with enough room of whatever kind", "why_tests_cant": "A statement about all pairs of builds, devices and parameters; a comparison of two builds on a few sets does not cover others.", "anchors": ["src/votess.ipp:tesellate", "src/pybind11/pyvotess.cpp:tess", "src/cc.ipp:compute"]}
{"id": "C90", "title": "Parameters given as floating point numbers of any size", "statement": "A float or double assigned to a parameter becomes text with six digits, which is then read as an int. From 0.00009999995 to 999999.5 the number arrives without its fraction, or as the next whole number if six digits do not tell them apart; whole numbers below 10^6 arrive unchanged, with their sign. Smaller numbers and numbers from 999999.5 on arrive as a digit from 1 to 9, never as the number meant, without any error: args['cc_p_maxsize'] = 1e6 in Python leaves room for one plane. As a switch exactly what arrives as 0 or 1 is accepted; infinities and NaN are accepted when assigned and throw when read. Read as a floating point number it arrives with a relative error of at most 1/200000, and exactly if it has at most six digits.", "quantifier": "all rational values, hence all floats and doubles; every key and parameter state", "why_tests_cant": "The change of notation depends on the value; tests use small whole numbers.", "anchors": ["include/arguments.hpp:to_str", "include/arguments.hpp:from_str", "src/pybind11/pyvotess.cpp:__setitem__"]}
{"id": "C91", "title": "Friends of friends", "statement": "Points are often grouped by a linking length: two points belong together if a chain of points leads from one to the other with no step longer than this length. Looking only at listed neighbours instead of all pairs gives the same groups, for every linking length. (So single linkage clusters and the lengths of a minimum spanning tree can be computed from the rows.)", "quantifier": "every set of different points in exact arithmetic with a clean report or recompute; every set with margins in rounded arithmetic, all eight ways of C89; every linking length", "why_tests_cant": "A property of chains of any length through all rows; a missing neighbour matters only for special lengths.", "anchors": ["src/votess.ipp:tesellate", "src/cc.ipp:compute", "src/pybind11/pyvotess.cpp:tess"]}
{"id": "C92", "title": "The nearest points one after the other", "statement": "Seen from any location in the box, every point but the nearest is listed in the row of a nearer one. So after the nearest point (C84) the second nearest, third nearest and so on are always found among the points listed by those found so far.", "quantifier": "exact arithmetic in general position with a clean report; every set with margins in rounded arithmetic, all eight ways of C89; every location, every number of points found", "why_tests_cant": "It has to hold for every location and every prefix of the order; needs symmetric rows.", "anchors": ["src/votess.ipp:tesellate", "src/cc.ipp:compute", "src/pybind11/pyvotess.cpp:tess"]}
{"id": "C93", "title": "Points left out of the call", "statement": "If the points left out of a call are more than twice as far from a point as any place of the cell its row cuts out, then the row is that of the whole set: it gives the cell and exactly the neighbours among all points. So a set can be treated in parts with halos around them, and parts agree on the points they share.", "quantifier": "exact arithmetic in general position with a clean report; every set with margins in rounded arithmetic, all eight ways of C89; every list of left out points, of which nothing else is asked; every two parts of a set", "why_tests_cant": "The left out points are arbitrary in number and place, and the claim is about every place of a cell.", "anchors": ["src/votess.ipp:tesellate", "src/cc.ipp:compute", "src/pybind11/pyvotess.cpp:tess"]}
{"id": "C94", "title": "Following a straight line from cell to cell", "statement": "A line between two locations of the box is followed through the cells with the rows only: it leaves the cell of a point through the plane of a listed point, at the first of these planes it crosses, and is then in the cell of that point. The line passes through finitely many cells in this way, never returns to a cell it left, and ends in the cell of a point nearest to its end.", "quantifier": "exact arithmetic with a clean report, in any position; every set with margins in rounded arithmetic, all eight ways of C89; every line in the box, every point in whose cell it begins", "why_tests_cant": "It has to hold for every line, and for every place of it.", "anchors": ["src/votess.ipp:tesellate", "src/cc.ipp:compute", "src/pybind11/pyvotess.cpp:tess"]}
