{"id": "C01", "title": "Vector shape invariant", "statement": "After any history of public vector operations (construction, resize, clear, push_back of scalars and of slices, append, prepend, remove, reverse, reform, copy-assignment, element writes) the number of stored elements of every vector equals the product of its advertised dimensions, and no operation that is given an incompatible shape changes the vector: it aborts instead.", "quantifier": "every element type, every number of dimensions, every finite sequence of operations, every argument including mismatched shapes", "why_tests_cant": "The invariant ranges over unbounded operation histories and shapes; a test only fixes a few histories.", "anchors": ["include/vif/core/vec.hpp: vec (ctor, resize, clear, push_back)", "include/vif/utility/bits/generic-rearrange.hpp: append, prepend, inplace_remove, reverse", "include/vif/utility/bits/generic-dims.hpp: reform, flatten"]}
{"id": "C02", "title": "A moved-from vector is empty and reusable", "statement": "After a vector has been moved from, by move construction or by move assignment, it reports size zero and zero dimensions and can be refilled with push_back so that it holds exactly the pushed values.", "quantifier": "every vector, every dimension count, every subsequent sequence of push_back calls", "why_tests_cant": "The defect is a latent inconsistency between data and dims which only shows for particular later operations on the moved-from object.", "anchors": ["include/vif/core/vec.hpp:91-95 move constructor", "include/vif/core/vec.hpp:147-151 move assignment", "include/vif/core/vec.hpp:249-259 push_back"]}
{"id": "C03", "title": "Multi-index and flat index are inverse", "statement": "For every shape, converting a flat index to its multi-dimensional index and back is the identity on [0,size), converting an in-range multi-index to its flat index and back is the identity, the flat index is always below the size, distinct multi-indices have distinct flat indices, and the order is row-major (last dimension fastest).", "quantifier": "every number of dimensions, every tuple of dimensions, every index", "why_tests_cant": "There are infinitely many shapes; tests use 1-3 fixed shapes.", "anchors": ["include/vif/utility/bits/generic-indices.hpp: mult_ids, flat_id", "include/vif/core/bits/access.hpp: pitch, to_idx_, helper_"]}
{"id": "C04", "title": "Signed indices wrap and never escape the vector", "statement": "Accessing element i of a vector of size n: a non-negative i below n reads element i, a negative i reads the element congruent to i modulo n, a non-negative i not below n aborts, and any access on an empty vector aborts. No accepted access ever reads outside [0,n), and the access always terminates.", "quantifier": "every size and every index value, for every width of index type", "why_tests_cant": "The index space is unbounded and the termination failure exists only at particular (width, size) combinations.", "anchors": ["include/vif/core/bits/access.hpp:284-312 to_idx_"]}
{"id": "C05", "title": "Range indexing selects exactly the requested run", "statement": "Indexing a vector with a left, right, left-right or full range yields exactly the elements with index in that range, in order; a bound outside the vector aborts; no range whose check passes reads outside the vector.", "quantifier": "every vector size, every pair of bounds", "why_tests_cant": "Boundary arithmetic is in unsigned integers; wrong results are confined to rare bound combinations.", "anchors": ["include/vif/core/range.hpp: range_size, check_bounds, range_begin, range_end", "include/vif/core/bits/access.hpp: range, bracket_access"]}
{"id": "C06", "title": "Multi-dimensional slicing addresses the right elements", "statement": "Accessing a vector with one selector per dimension (integer, range or index list) yields a view whose dimensions are the lengths of the non-integer selectors and whose element at position (k1,..,km) is the vector's element at the multi-index obtained by substituting the selected coordinates. All addresses are in bounds.", "quantifier": "every number of dimensions, every shape, every combination of selectors", "why_tests_cant": "Combinatorially many selector patterns and shapes.", "anchors": ["include/vif/core/bits/access.hpp:337-494 helper_"]}
{"id": "C07", "title": "View assignment behaves as if the right-hand side were copied first", "statement": "Assigning a view or vector expression to a view (v[i]=v[j], v[i]=v, v[i]+=v[j], v = v[i]) leaves the target with exactly the values the right-hand side had before the assignment, even when both sides refer to overlapping elements of the same vector.", "quantifier": "every vector content, every pair of index lists, overlapping or not", "why_tests_cant": "Aliasing patterns are unbounded; the docs promise aliasing never occurs.", "anchors": ["include/vif/core/vec.hpp: vec<Dim,T*>::assign_, view_same, operator=", "include/vif/core/bits/access.hpp: bracket_access"]}
{"id": "C08", "title": "Elementwise operators are pointwise with strict shape checking", "statement": "For vectors a and b of the same shape, a op b has that shape and its element at every position is a[i] op b[i]; if shapes differ the operation aborts without changing anything; vector-scalar forms apply the scalar to every element; the compound forms (+=, ...) give the same values as the binary forms, also when the right-hand side is the vector itself.", "quantifier": "every operator, every shape, every content", "why_tests_cant": "Needs to hold for every shape and content.", "anchors": ["include/vif/core/bits/operators.hpp", "include/vif/core/vec.hpp:568-602"]}
{"id": "C09", "title": "append and prepend concatenate slices along the chosen dimension", "statement": "append(v,w) along dimension N gives a vector whose dimension N is the sum and whose slices along N are those of v followed by those of w (prepend: w then v); the other vector is unchanged; when the remaining dimensions differ the call aborts; an empty target takes the shape and content of the other vector.", "quantifier": "every shape and content of both vectors and every dimension N", "why_tests_cant": "Strides for an arbitrary dimension; infinitely many shapes.", "anchors": ["include/vif/utility/bits/generic-rearrange.hpp:157-215"]}
{"id": "C10", "title": "Removing a list of indices keeps the others in order", "statement": "inplace_remove(v, ids) leaves exactly the slices of v along the first dimension whose index is not in ids, in their original order; an index outside the first dimension aborts.", "quantifier": "every vector, every list of indices in any order, with or without repetitions", "why_tests_cant": "All index multisets.", "anchors": ["include/vif/utility/bits/generic-rearrange.hpp:118-155"]}
{"id": "C11", "title": "reverse is an involution and shift is an action of the integers", "statement": "reverse(reverse(v)) = v and reverse(v)[i] = v[n-1-i]; shift(v,k)[(i+k) mod n] = v[i]; shifting by j then k equals shifting by j+k; shifting by 0 or by n is the identity; shifting by k then -k restores v.", "quantifier": "every vector and every integer shift of either sign", "why_tests_cant": "All sizes and shifts, including shifts larger than the size and negative ones.", "anchors": ["include/vif/utility/bits/generic-rearrange.hpp:5-30"]}
{"id": "C12", "title": "transpose is an involution exchanging indices", "statement": "transpose(v) has swapped dimensions, transpose(v)(j,i) = v(i,j) for every valid i,j, and transpose(transpose(v)) = v.", "quantifier": "every 2-D vector including empty ones", "why_tests_cant": "All shapes.", "anchors": ["include/vif/utility/bits/generic-rearrange.hpp:32-48"]}
{"id": "C13", "title": "replicate repeats its argument", "statement": "replicate(t, d1,..,dk) of a scalar is a vector of shape d1..dk with every element t; of a vector it has shape d1..dk followed by the vector's shape and element (i1..ik, j..) is t(j..).", "quantifier": "every scalar or vector and every repetition counts", "why_tests_cant": "All shapes.", "anchors": ["include/vif/utility/bits/generic-rearrange.hpp:50-76"]}
{"id": "C14", "title": "sort returns a stable sorting permutation with NaN last", "statement": "sort(v) returns a permutation of [0,n) such that v taken in that order is non-decreasing with NaNs after all numbers, and equal elements keep their original relative order; inplace_sort produces the same multiset in non-decreasing order; is_sorted accepts exactly the results of sorting.", "quantifier": "every vector, including repeated values and NaN", "why_tests_cant": "All inputs; ties and NaN are rarely tested.", "anchors": ["include/vif/utility/bits/generic-rearrange.hpp:78-116", "include/vif/core/bits/helpers.hpp:392-428"]}
{"id": "C15", "title": "unique_ids picks one representative of each value", "statement": "unique_ids(v) returns in increasing value order exactly one index for every distinct value of v; unique_values gives each distinct value exactly once in increasing order; unique_ids_sorted does the same for sorted input.", "quantifier": "every vector (without NaN)", "why_tests_cant": "All inputs, repetitions.", "anchors": ["include/vif/utility/bits/generic-find.hpp:78-166"]}
{"id": "C16", "title": "where and complement partition the indices", "statement": "where(v) returns in increasing order exactly the indices whose flag is true; complement(v, ids) returns in increasing order exactly the indices of v not in ids; where(v) and complement(v, where(v)) are disjoint and together cover [0,n).", "quantifier": "every boolean vector, every index list (sorted or not, with repetitions)", "why_tests_cant": "All inputs; the shortcut on sizes matters only for repeated indices.", "anchors": ["include/vif/utility/bits/generic-find.hpp:9-75"]}
{"id": "C17", "title": "where_first and where_last return the extreme true index", "statement": "where_first(v) is the smallest index with a true flag and where_last(v) the largest, or npos if there is none.", "quantifier": "every boolean vector", "why_tests_cant": "All inputs.", "anchors": ["include/vif/utility/bits/generic-find.hpp:26-54"]}
{"id": "C18", "title": "is_any_of is membership", "statement": "is_any_of(x, set) is true iff some element of set equals x, elementwise for vector x; NaN equals nothing.", "quantifier": "every pair of vectors", "why_tests_cant": "Two code paths split by size.", "anchors": ["include/vif/utility/bits/generic-find.hpp:168-194"]}
{"id": "C19", "title": "match pairs equal values", "statement": "match(a,b,ia,ib) returns index lists of equal length with a[ia[k]] = b[ib[k]] for every k; as documented, every element of a that occurs in b is reported, with the pairs ordered as in the documentation, independently of the vector sizes.", "quantifier": "every pair of vectors of every size", "why_tests_cant": "A size-dependent algorithm switch at 64 elements changes the result only for large inputs with repeated values.", "anchors": ["include/vif/utility/bits/generic-find.hpp:196-249"]}
{"id": "C20", "title": "set_intersection and set_union have set semantics", "statement": "For vectors without repetition set_intersection_sorted contains exactly the common values in increasing order and set_union exactly the values of either in increasing order; with repetitions multiplicities are the minimum, respectively the maximum, of both.", "quantifier": "every pair of vectors", "why_tests_cant": "All inputs.", "anchors": ["include/vif/utility/bits/generic-find.hpp:251-318"]}
{"id": "C21", "title": "lower_bound, upper_bound, bounds and equal_range", "statement": "For a sorted vector, lower_bound(v,x) is the last index whose value is <= x or npos, upper_bound(v,x) is the first index whose value is > x or npos, bounds returns both; they are adjacent when both exist; equal_range delimits exactly the elements equal to x.", "quantifier": "every sorted vector and every value", "why_tests_cant": "Off-by-one behaviour at both ends and with repeated values.", "anchors": ["include/vif/utility/bits/generic-find.hpp:320-432"]}
{"id": "C22", "title": "astar_find returns the closest true element", "statement": "For a 2-D boolean map and a starting position, astar_find reports success iff the map contains a true element, and then the returned position is true and no true element is closer (4-neighbour path length).", "quantifier": "every map and every starting position", "why_tests_cant": "All maps; breadth-first bookkeeping.", "anchors": ["include/vif/utility/bits/generic-find.hpp:434-487"]}
{"id": "C23", "title": "increment_index_list enumerates all multi-indices once", "statement": "Starting from all zeros, repeatedly calling increment_index_list with dimensions d visits every multi-index with i_k < d_k exactly once in row-major order before returning to all zeros after exactly prod(d) calls.", "quantifier": "every list of positive dimensions", "why_tests_cant": "All shapes; odometer carry.", "anchors": ["include/vif/utility/bits/generic-indices.hpp:90-116"]}
{"id": "C24", "title": "Partial reductions see exactly the slice", "statement": "A reduction of a vector along dimension D produces a vector without that dimension whose value at each multi-index is the reducing function applied to the list of elements obtained by varying the index along D from 0 to dims[D]-1, in order.", "quantifier": "every number of dimensions, shape, chosen dimension and reducing function", "why_tests_cant": "Stride arithmetic for arbitrary D and shape.", "anchors": ["include/vif/math/reduce.hpp:478-629 run_index_, run_dim_final_, reduce"]}
{"id": "C25", "title": "min, max and minmax with NaN", "statement": "On a vector with at least one non-NaN value, min/max return a smallest/largest non-NaN value and min_id/max_id an index holding it; with only NaN they return NaN. minmax agrees with min and max.", "quantifier": "every non-empty vector including NaN in any position", "why_tests_cant": "NaN comparison breaks ordering assumptions in position-dependent ways.", "anchors": ["include/vif/math/reduce.hpp:263-330"]}
{"id": "C26", "title": "median and percentile are order statistics of the non-NaN values", "statement": "median(v) and percentile(v,u) depend only on the multiset of non-NaN values, return the documented order statistic of it, and return NaN only if there is no non-NaN value.", "quantifier": "every vector with any number of NaN, every u in [0,1]", "why_tests_cant": "Selection with NaN at arbitrary positions.", "anchors": ["include/vif/math/reduce.hpp:122-249"]}
{"id": "C27", "title": "histogram counts each datum in exactly one bin", "statement": "histogram(data,bins) gives in each bin the number of data inside [lo,hi) of that bin, for contiguous increasing bins; the total is the number of data inside the full range; the weighted and by-index variants agree with it.", "quantifier": "every data vector and every increasing contiguous set of bins", "why_tests_cant": "All data sets; the successive partition reorders the data.", "anchors": ["include/vif/math/histogram.hpp:186-264"]}
{"id": "C28", "title": "cumul is the prefix integral", "statement": "cumul(x,y) at i is the trapezoid integral of y up to x[i], it starts at 0 and each step adds the trapezoid; cumul(y) at i is the sum of the elements up to and including i, and cumul_reverse(y) at i the sum of the elements from i to the end.", "quantifier": "every pair of vectors of equal length", "why_tests_cant": "All lengths.", "anchors": ["include/vif/math/reduce.hpp:863-879", "include/vif/math/histogram.hpp:365-387"]}
{"id": "C29", "title": "integrate is the exact integral of the piecewise linear interpolant", "statement": "integrate(x,y) equals the sum of the trapezoids; integrate(x,y,x0,x1) equals the integral of the piecewise linear interpolant between x0 and x1, is additive over adjacent intervals and equals integrate(x,y) on the full interval.", "quantifier": "every strictly increasing x, every y, every x0<=x1 in range", "why_tests_cant": "All knot positions; bounds landing on knots.", "anchors": ["include/vif/math/reduce.hpp:690-793"]}
{"id": "C30", "title": "Linear interpolation is exact on knots and between them", "statement": "interpolate(y,x,nx) returns y[i] at nx=x[i], lies on the chord of the surrounding interval inside the range and on the first/last chord outside; linear data is reproduced exactly everywhere.", "quantifier": "every strictly increasing x of at least two points, every y, every nx", "why_tests_cant": "All knots and positions.", "anchors": ["include/vif/math/interpolate.hpp:20-101"]}
{"id": "C31", "title": "The cubic spline interpolates and is smooth", "statement": "interpolate_3spline passes through all knots, and the piecewise polynomial has continuous first and second derivatives at interior knots.", "quantifier": "every strictly increasing x and every y", "why_tests_cant": "A wrong coefficient for non-uniform spacing still interpolates all nodes.", "anchors": ["include/vif/math/interpolate.hpp:265-458"]}
{"id": "C32", "title": "rgen, rgen_step and make_bins generate the documented grid", "statement": "rgen(i,j,n) for n>=2 has n equally spaced values starting at i and ending at j; rgen_step(i,j,s) always starts at i, ends at j, is strictly monotone, and all steps but the last equal s; make_bins(lo,hi,n) are n contiguous bins covering exactly [lo,hi).", "quantifier": "every i,j, every n, every positive s", "why_tests_cant": "All numeric arguments.", "anchors": ["include/vif/math/base.hpp:198-263", "include/vif/math/histogram.hpp:9-62"]}
{"id": "C33", "title": "The convex hull contains every input point", "statement": "build_convex_hull(x,y) returns a closed polygon whose vertices are input points, which is convex and counter-clockwise ordered as promised, and every input point lies on the inner side of all its edges.", "quantifier": "every finite set of points", "why_tests_cant": "All point configurations, duplicates, collinear sets.", "anchors": ["include/vif/math/convex_hull.hpp:105-190"]}
{"id": "C34", "title": "split and collapse are inverse", "statement": "collapse(split(s,sep),sep) = s for every string and non-empty separator; no piece of split(s,sep) contains the separator; if no piece contains the separator character, split(collapse(v,c),c) = v for non-empty v.", "quantifier": "every string, every non-empty separator, every list of strings", "why_tests_cant": "All strings.", "anchors": ["include/vif/utility/bits/string-split.hpp:6-112"]}
{"id": "C35", "title": "replace substitutes all non-overlapping occurrences", "statement": "replace(s,a,b) with non-empty a equals the pieces of split(s,a) joined with b; it terminates, also when b contains a; replacing a by a is the identity.", "quantifier": "every string triple", "why_tests_cant": "All strings; termination when the replacement contains the pattern.", "anchors": ["include/vif/utility/bits/string-find-replace.hpp:13-23"]}
{"id": "C36", "title": "trim, begins_with, ends_with, erase_begin, erase_end", "statement": "trim(s,chars) removes the maximal prefix and suffix of characters from chars and nothing else and is idempotent; begins_with/ends_with decide prefix/suffix; erase_begin(p+s,p)=s, erase_end(s+p,p)=s, and erase_begin(s,p) aborts iff s does not begin with p.", "quantifier": "every string", "why_tests_cant": "All strings.", "anchors": ["include/vif/utility/bits/string-find-replace.hpp:25-92"]}
{"id": "C37", "title": "distance is a metric on strings", "statement": "distance(a,b) is zero iff a=b, is symmetric and satisfies the triangle inequality.", "quantifier": "every triple of strings", "why_tests_cant": "Universal over triples of strings.", "anchors": ["include/vif/utility/bits/string-base.hpp: distance"]}
{"id": "C38", "title": "Alignment pads to the exact width and keeps the text", "statement": "align_left/right/center(s,w,c) return a string of length max(w,|s|) made of s with only padding characters c on the documented sides; centring puts the paddings within one of each other.", "quantifier": "every string, width and padding character", "why_tests_cant": "All widths.", "anchors": ["include/vif/utility/bits/string-format.hpp:36-62"]}
{"id": "C39", "title": "cut and wrap lose no text and respect the width", "statement": "cut(s,n) yields consecutive pieces of at most n characters whose concatenation is s; wrap(s,w) produces lines of at most w characters (unless a single word is longer) containing the words of s in order.", "quantifier": "every string and positive width", "why_tests_cant": "All strings and widths; tail handling depends on length modulo width.", "anchors": ["include/vif/utility/bits/string-split.hpp:40-87"]}
{"id": "C40", "title": "hash computes SHA-1", "statement": "For every byte string shorter than 2^28 bytes the digest returned by the library's SHA-1 is the FIPS 180 SHA-1 digest.", "quantifier": "every byte string below the bound, every padding case", "why_tests_cant": "All lengths modulo 64 and all contents.", "anchors": ["include/vif/utility/bits/string-hash.hpp:10-162"]}
{"id": "C41", "title": "hash distinguishes different argument lists", "statement": "Two calls hash(a...) and hash(b...) on different argument lists of the same types feed different byte strings to the digest.", "quantifier": "every pair of argument lists", "why_tests_cant": "The collisions come from missing separators, at arbitrary strings.", "anchors": ["include/vif/utility/bits/string-hash.hpp:153-170"]}
{"id": "C42", "title": "regex_replace rewrites exactly the matches and terminates", "statement": "For a matcher that returns matches inside the subject, regex_replace copies all unmatched text unchanged, in order, replaces each successive match by the function result, terminates, and with the identity function returns the input unchanged.", "quantifier": "every matcher behaviour, subject and replacement function", "why_tests_cant": "The regex engine is arbitrary; zero-length matches.", "anchors": ["include/vif/utility/bits/string-regex.hpp:36-154"]}
{"id": "C43", "title": "time_str and seconds_str are readable back", "statement": "For t>=1 seconds, time_str(t) denotes the duration floor(t): the days, hours, minutes and seconds in the string sum to floor(t), each in canonical range, zero units omitted; different whole durations give different strings.", "quantifier": "every duration of at least one second", "why_tests_cant": "All durations.", "anchors": ["include/vif/utility/time.hpp:26-80"]}
{"id": "C44", "title": "Path splitting and joining", "statement": "get_directory(p)+get_basename(p) denotes p; remove_extension(p)+get_extension(p)=p; directorize(p) ends in exactly the added slash, is idempotent; get_basename contains no '/' .", "quantifier": "every path string", "why_tests_cant": "All strings, trailing and repeated slashes.", "anchors": ["include/vif/io/filesystem.hpp:195-267"]}
{"id": "C45", "title": "Delimited line splitting reads every column", "statement": "Reading a table line with a single-string delimiter gives as columns exactly the pieces of the line between delimiters, in order, including empty ones at any position; with whitespace delimiters exactly the maximal non-blank words.", "quantifier": "every line and delimiter", "why_tests_cant": "All lines; leading delimiters.", "anchors": ["include/vif/io/ascii.hpp:78-147"]}
{"id": "C46", "title": "Command line arguments are read by exact name, last one wins", "statement": "After reading arguments, a variable holds the value of the last argument whose name equals the variable's name and parses, otherwise its default; arguments that are not recognised affect no variable.", "quantifier": "every argument list and every variable set", "why_tests_cant": "All argument lists.", "anchors": ["include/vif/utility/argv.hpp:55-198"]}
{"id": "C47", "title": "The single-producer single-consumer queue is a FIFO", "statement": "For one producer and one consumer thread, under every interleaving, the values popped are exactly a prefix of the values pushed, in order and without duplication; pop fails only if everything pushed (and published) so far has been popped; no node is accessed after being freed or freed twice.", "quantifier": "every interleaving of every finite or infinite sequence of operations at atomic-access granularity", "why_tests_cant": "Interleavings cannot be enumerated by tests.", "anchors": ["include/vif/utility/bits/thread-queue.hpp: lock_free_queue (push, pop, size, empty, clear)"]}
{"id": "C48", "title": "thread::worker executes every pushed job once, in order, before wait returns", "statement": "Under every schedule, when wait() returns all pushed jobs have been executed exactly once in push order.", "quantifier": "every schedule, every number of jobs", "why_tests_cant": "Schedules.", "anchors": ["include/vif/utility/bits/thread-worker.hpp"]}
{"id": "C49", "title": "worker_pool processes every item exactly once", "statement": "Under every schedule, every item given to process() is executed exactly once by the time consume_all() followed by join() returns, items on the same worker in order; join() alone must not lose items.", "quantifier": "every schedule, number of workers, number of items", "why_tests_cant": "Schedules.", "anchors": ["include/vif/utility/bits/thread-worker-pool.hpp"]}
{"id": "C50", "title": "parallel_for executes every index exactly once", "statement": "execute(f, first, last) calls f exactly once for every index in [first,last) and for no other, under every schedule, for every number of workers and chunk size.", "quantifier": "every range, number of workers, chunk size and schedule", "why_tests_cant": "Schedules, and arithmetic of chunking at unusual parameters.", "anchors": ["include/vif/utility/bits/thread-parallel-for.hpp"]}
{"id": "C51", "title": "LU solve solves the system", "statement": "If decompose_lu::decompose(A) succeeds, solve(b) returns x with A x = b (in exact arithmetic), and decompose fails only for singular A.", "quantifier": "every square matrix over a field, every right-hand side", "why_tests_cant": "All matrices and pivot orders.", "anchors": ["include/vif/math/bits/matrix-functions.hpp:117-226"]}
{"id": "C52", "title": "LU determinant is the determinant", "statement": "If the decomposition succeeds determinant() equals the determinant of A.", "quantifier": "every square matrix over a field", "why_tests_cant": "Sign of the pivot permutation for all matrices.", "anchors": ["include/vif/math/bits/matrix-functions.hpp:275-283"]}
{"id": "C53", "title": "LU invert gives the inverse", "statement": "If the decomposition succeeds, invert() returns B with A B = B A = 1; for decompositions with and without pivoting.", "quantifier": "every square matrix over a field", "why_tests_cant": "All matrices and pivot orders.", "anchors": ["include/vif/math/bits/matrix-functions.hpp:228-273"]}
{"id": "C54", "title": "Cholesky decomposition and its solvers", "statement": "If decompose_cholesky::decompose(A) succeeds on a symmetric A then L L^T = A; solve(b) solves A x = b; invert gives the inverse; determinant is det A.", "quantifier": "every symmetric matrix over an ordered field with square roots", "why_tests_cant": "All matrices.", "anchors": ["include/vif/math/bits/matrix-functions.hpp:288-502"]}
{"id": "C55", "title": "linfit minimises chi-square", "statement": "When linfit reports success, the returned parameters minimise the weighted sum of squared residuals among all parameter vectors, and the returned chi2 is that minimum.", "quantifier": "every data set, error set and list of template vectors", "why_tests_cant": "Optimality is against all other parameter vectors.", "anchors": ["include/vif/math/linfit.hpp:40-115"]}
{"id": "C56", "title": "Brute-force cross-match returns the nth nearest neighbours", "statement": "qxmatch by brute force returns for every source of the first catalogue the indices of its n nearest sources of the second in increasing distance, with those distances, for any number of threads.", "quantifier": "every pair of catalogues, every n, every number of threads", "why_tests_cant": "All geometries, ties, thread partitions.", "anchors": ["include/vif/astro/qxmatch.hpp:313-333, 490-606"]}
{"id": "C57", "title": "Bucketed cross-match finds the same distances as brute force", "statement": "qxmatch with the bucket search reports the same nearest-neighbour distance as brute force.", "quantifier": "every pair of catalogues", "why_tests_cant": "Only far-away geometries expose unvisited cells.", "anchors": ["include/vif/astro/qxmatch.hpp:44-128, 230-489"]}
{"id": "C58", "title": "xmatch_clean_best leaves a one-to-one match", "statement": "xmatch_clean_best keeps only mutual best pairs: every kept pair matches each other's best, no source is used twice.", "quantifier": "every cross-match result", "why_tests_cant": "All match graphs.", "anchors": ["include/vif/astro/qxmatch.hpp:641-663"]}
{"id": "C59", "title": "randomi returns integers of the closed interval", "statement": "randomi(seed,mi,ma) and its vector form only return integers between mi and ma inclusive.", "quantifier": "every mi<=ma of either sign and every random stream", "why_tests_cant": "The wrong values have tiny probability or need negative bounds.", "anchors": ["include/vif/math/random.hpp:40-64"]}
{"id": "C60", "title": "shrink undoes enlarge", "statement": "shrink(enlarge(v,u,def),u) = v for every non-empty image and every margins; the margins of the enlarged image hold def.", "quantifier": "every image and margins", "why_tests_cant": "All shapes.", "anchors": ["include/vif/astro/image.hpp:14-54"]}
{"id": "C61", "title": "Image flips are involutions", "statement": "flip_x and flip_y are involutions, commute, and flip_x(v)(y,x)=v(y,W-1-x), flip_y(v)(y,x)=v(H-1-y,x).", "quantifier": "every image", "why_tests_cant": "In-place swapping for odd and even sizes.", "anchors": ["include/vif/astro/image.hpp:157-177"]}
{"id": "C62", "title": "Cyclic image shift", "statement": "shift(v,dx,dy)((x+dx) mod W,(y+dy) mod H)=v(x,y) and shifts compose additively.", "quantifier": "every non-empty image and every pair of shifts", "why_tests_cant": "All sizes and shifts.", "anchors": ["include/vif/astro/image.hpp:261-287"]}
{"id": "C63", "title": "Integer translation moves pixels and fills with the default", "statement": "translate_integer(v,dx,dy,def)(x,y) = v(x-dx,y-dy) when that pixel exists and def otherwise.", "quantifier": "every image and every pair of shifts", "why_tests_cant": "Shifts beyond the image size.", "anchors": ["include/vif/astro/image.hpp:289-356"]}
{"id": "C64", "title": "subregion maps exactly the overlap", "statement": "subregion(v,reg,rv,rr) returns exactly the pairs (flat index in the image, flat index in the region) of the pixels in the intersection, each once, all in bounds; the image form returns v inside the overlap and def outside.", "quantifier": "every image shape, every region including empty, inverted and out of range", "why_tests_cant": "All overlaps.", "anchors": ["include/vif/astro/image.hpp:56-124"]}
{"id": "C65", "title": "segment labels connected components", "statement": "segment(map) labels two non-zero pixels alike iff they are connected by 4-neighbour steps through non-zero pixels, labels zero pixels 0, uses consecutive ids, and reports for each id the number of its pixels as area.", "quantifier": "every map", "why_tests_cant": "All shapes of components.", "anchors": ["include/vif/astro/image.hpp:833-990"]}
{"id": "C66", "title": "mask_inflate grows the mask by Manhattan distance d", "statement": "mask_inflate(m,d) is true exactly at pixels within Manhattan distance d of a true pixel of m.", "quantifier": "every mask and every d", "why_tests_cant": "Only edges are inflated; correctness needs an argument for all masks.", "anchors": ["include/vif/astro/image.hpp:776-831"]}
{"id": "C67", "title": "convolve2d_naive is the zero-padded discrete convolution", "statement": "Each output pixel is the sum over kernel offsets of kernel times the correspondingly displaced map pixel, out-of-map pixels counting zero; it is bilinear and the unit kernel is the identity.", "quantifier": "every map and every odd-sized kernel", "why_tests_cant": "All shapes, kernels larger than the map.", "anchors": ["include/vif/astro/image.hpp:428-457"]}
{"id": "C68", "title": "boxcar hands func exactly the clipped window", "statement": "boxcar(img,h,func)(x,y) is func applied to the pixels within h of (x,y) in both directions clipped to the image, in row-major order.", "quantifier": "every image, half-size and function", "why_tests_cant": "Unsigned subtraction when the box exceeds the image.", "anchors": ["include/vif/astro/image.hpp:751-774"]}
{"id": "C69", "title": "in_bin partitions and edges/centres round trip", "statement": "Contiguous bins of make_bins or make_bins_from_edges are disjoint and cover the range: each value in range lies in exactly one bin; in_bin_open extends the extreme bins to infinity so each number lies in exactly one.", "quantifier": "every increasing edges and every value", "why_tests_cant": "All values including edges.", "anchors": ["include/vif/math/histogram.hpp:9-155"]}
{"id": "C70", "title": "shuffle is a permutation; random_coin frequency bounds", "statement": "shuffle returns a permutation of its input for every random stream; random_coin with prob 1 is always true and with prob 0 always false.", "quantifier": "every vector, every random stream", "why_tests_cant": "Random streams.", "anchors": ["include/vif/math/random.hpp:106-146"]}
{"id": "C71", "title": "Macroed column names expand as documented", "statement": "bake_macroed_name/pop_macroed_name split a comma-separated list of names at top-level commas respecting parentheses, losing no character.", "quantifier": "every string", "why_tests_cant": "All strings, nesting.", "anchors": ["include/vif/io/ascii.hpp:719-803"]}
{"id": "C72", "title": "Initializer lists of lists build rectangular vectors", "statement": "Building a multi-dimensional vector from nested lists gives the shape of the nesting with element (i,j,..) the corresponding leaf, and aborts if sub-lists have different lengths.", "quantifier": "every nested list", "why_tests_cant": "All nestings.", "anchors": ["include/vif/core/bits/initializer_list.hpp"]}
{"id": "C73", "title": "Joining a worker pool loses no queued item", "statement": "When join() (or the destructor) of a worker_pool returns, every item given to process() has been executed exactly once, without a prior consume_all().", "quantifier": "every number of workers, every sequence of items, every schedule", "why_tests_cant": "Whether an item is dropped depends on the thread schedule.", "anchors": ["include/vif/utility/bits/thread-worker-pool.hpp: join, ~worker_pool"]}
{"id": "C74", "title": "Compound assignment with one of the vector's own elements", "statement": "v op= v[k] and view op= v[k] combine every element with the value v[k] had before the statement.", "quantifier": "every vector, every element k, every operator", "why_tests_cant": "All vectors and positions; a test with k the last element passes.", "anchors": ["include/vif/core/vec.hpp:588-596,1138-1144"]}
{"id": "C75", "title": "split_any_of yields exactly the maximal runs of non-separator characters", "statement": "split_any_of(s,chars) returns, in order, the maximal runs of characters of s that are not in chars: no piece is empty or contains a separator, and s is the pieces with non-empty runs of separators between them (possibly empty at both ends).", "quantifier": "every string and every set of separator characters", "why_tests_cant": "All strings; leading, trailing and repeated separators.", "anchors": ["include/vif/utility/bits/string-split.hpp:21-38"]}
{"id": "C76", "title": "get_word selects the n-th word from either end", "statement": "get_word(s,sep,n) for n >= 0 returns the n-th word of s (runs of non-separator characters, from the left) and for n < 0 the word number -n-1 from the right, and aborts exactly when there is no such word.", "quantifier": "every string, set of separators and index", "why_tests_cant": "All strings and all indices of either sign.", "anchors": ["include/vif/utility/bits/string-find-replace.hpp:94-135"]}
{"id": "C77", "title": "replace_block rewrites exactly the delimited blocks", "statement": "replace_block(s,begin,end,f) with non-empty markers copies all text outside the blocks unchanged, in order, and replaces each block begin..end by f(content) where the content is the text up to the first end marker; it aborts exactly when a block is not closed; with f restoring the markers it returns the input unchanged.", "quantifier": "every string, markers and conversion function", "why_tests_cant": "All strings; termination when f returns markers.", "anchors": ["include/vif/utility/bits/string-find-replace.hpp:137-162"]}
{"id": "C78", "title": "regex_extract returns the groups of the successive matches", "statement": "For a matcher that returns matches inside the subject, regex_extract returns one row per successive non-overlapping match, each with one string per group (empty for a group that did not take part), and terminates.", "quantifier": "every matcher behaviour and subject", "why_tests_cant": "The regex engine is arbitrary; zero-length matches.", "anchors": ["include/vif/utility/bits/string-regex.hpp:40-52", "include/vif/utility/bits/string-regex.hpp:90-121"]}
{"id": "C79", "title": "mkdir creates the ancestors of a path in order", "statement": "mkdir(path) asks the system to create every non-empty prefix of the path ending at a separator (its ancestors) from the outermost to the path itself, stops at the first failure and reports it; it reports success exactly when every request succeeded.", "quantifier": "every path and every behaviour of the operating system", "why_tests_cant": "The outcome of each system call is arbitrary; all paths with repeated, leading and trailing separators.", "anchors": ["include/vif/io/filesystem.hpp:269-281"]}
{"id": "C80", "title": "Directory listing returns exactly the matching entries and releases its handle once", "statement": "list_files and list_directories return, in the order of the directory stream, exactly the names of the entries of the right kind that match the pattern (hidden entries and . and .. excluded), and every directory handle opened by an explorer is closed exactly once.", "quantifier": "every directory content, pattern and sequence of open/close/destroy operations", "why_tests_cant": "Directory contents and operation sequences are unbounded; double closing shows only under particular sequences.", "anchors": ["include/vif/io/filesystem.hpp:70-196"]}
{"id": "C81", "title": "read_table stores the words of each data line in the requested columns", "statement": "read_table on a file yields one row per line that is neither blank nor (with auto_skip) starts with the comment pattern, minus the first skip_first of them; row i column j is the conversion of the j-th word of that line, placeholders skip words, extra words are ignored; it stops with an error exactly when a line has too few words or a conversion fails.", "quantifier": "every file content, format and list of columns", "why_tests_cant": "All file contents: line endings, missing final newline, comments, blanks, short lines.", "anchors": ["include/vif/io/ascii.hpp:76-147", "include/vif/io/ascii.hpp:299-374"]}
{"id": "C82", "title": "A table written by write_table is read back by read_table", "statement": "For columns of non-empty words without blanks, delimiters or line breaks, whose lines do not start with the comment pattern, reading with read_table a file written by write_table (with any minimum width, automatic width or not, with or without header) returns the same rows; the same holds for the CSV formats.", "quantifier": "every table contents, widths and header", "why_tests_cant": "All table contents and sizes; padding depends on all cells of a column.", "anchors": ["include/vif/io/ascii.hpp:376-704", "include/vif/io/ascii.hpp:317-374"]}
{"id": "C83", "title": "write_table refuses columns of different lengths and never reads outside its columns", "statement": "write_table either writes every row of all its columns or stops with an error when two columns have different lengths; it never reads beyond the end of a column.", "quantifier": "every list of columns of any lengths", "why_tests_cant": "Empty columns in any position.", "anchors": ["include/vif/io/ascii.hpp:436-480", "include/vif/io/ascii.hpp:617-704"]}
{"id": "C84", "title": "Files with automatic column widths are aligned", "statement": "Every line of a file written by write_table with auto_width, header included, has the same number of characters; there is one line per row plus one for a non-empty header.", "quantifier": "every table contents, minimum width and header", "why_tests_cant": "The width depends on all cells; holds for all tables.", "anchors": ["include/vif/io/ascii.hpp:624-704"]}
{"id": "C85", "title": "A vector given as name=[a,b,...] is read back as its elements", "statement": "Passing the argument name=[w1,w2,...] for words without separators sets the vector variable called name to the conversions of w1, w2, ... in order.", "quantifier": "every list of words and every conversion", "why_tests_cant": "All numbers and contents of elements, including none and empty ones.", "anchors": ["include/vif/utility/argv.hpp:84-157"]}
{"id": "C87", "title": "recenter keeps the centre pixel at the centre", "statement": "recenter(img,y,x) returns an image of the same size in which the given pixel is at the centre and all others keep their displacement from it, pixels from outside the image being the default; the form with a size does the same for an image of the requested size.", "quantifier": "every image, centre (inside or outside the image) and size", "why_tests_cant": "All positions, in particular those outside of the image, and all sizes.", "anchors": ["include/vif/astro/image.hpp:339-356"]}
{"id": "C88", "title": "generate_img evaluates the function once for each pixel", "statement": "generate_img(dims,f) returns an image of the given dimensions whose pixel (x,y) is f(x,y).", "quantifier": "every pair of dimensions and every function", "why_tests_cant": "All dimensions including zero.", "anchors": ["include/vif/astro/image.hpp:404-416"]}
{"id": "C86", "title": "stride iterates exactly along one dimension", "statement": "for (auto& x : v.stride(i,...,_,...,j)) visits, in order, exactly the elements whose index in the placeholder dimension runs over that dimension and whose other indices are the given ones (negative ones counting from the end); end-begin is the size of the dimension; invalid indices are refused.", "quantifier": "every number of dimensions, shape, placeholder position and indices", "why_tests_cant": "All shapes, numbers of dimensions and positions of the placeholder.", "anchors": ["include/vif/core/bits/access.hpp:661-740", "include/vif/core/bits/iterator.hpp:80-110"]}
{"id": "C89", "title": "min_area removes exactly the segments with fewer pixels", "statement": "segment(map,out,params) with params.min_area=k erases from the map and from the output exactly the segments with fewer than k pixels and leaves the other ones unchanged.", "quantifier": "every map, first id and minimal area", "why_tests_cant": "All shapes and sizes of components around the limit.", "anchors": ["include/vif/astro/image.hpp:833-984"]}
{"id": "C90", "title": "Matrix solvers agree with and without LAPACK", "statement": "matrix::solve(A,b,x) gives A x = b, matrix::invert(A,B) gives A B = B A = 1 and matrix::invert_symmetric(A,B) gives the inverse of a symmetric A, also when the library is built with LAPACK, whatever the implementation of LAPACK is, as long as it meets its contract.", "quantifier": "every square matrix and right-hand side, every implementation of dgesv, dgetrf+dgetri and dsytrf+dsytri", "why_tests_cant": "Storage order conventions matter only for asymmetric matrices; all matrices and all LAPACK implementations.", "anchors": ["include/vif/math/bits/matrix-functions.hpp:575-735"]}
{"id": "C91", "title": "linfit_batch stays equivalent to linfit under updates", "statement": "After any sequence of update_model and update_models calls on a linfit_batch object, fit(y) gives the same success flag, parameters and chi2 as a call to linfit with the current templates.", "quantifier": "every data set, every list of templates, every history of updates", "why_tests_cant": "Histories of updates are unbounded.", "anchors": ["include/vif/math/linfit.hpp:286-460"]}
{"id": "C92", "title": "linfit_nn returns non-negative parameters that improve the fit", "statement": "linfit_nn returns parameters that are not negative, whose chi2 is the returned one and is minimal among non-negative parameters, and reports success when it converges.", "quantifier": "every data set and list of templates", "why_tests_cant": "Optimality and sign for all data; iteration counts vary.", "anchors": ["include/vif/math/linfit.hpp:117-176"]}
{"id": "C93", "title": "Signed distance to a convex hull", "statement": "convex_hull_distance(x,y,hull) has the absolute value of the distance of the point to the boundary of the hull (no boundary point is nearer, one is at this distance) and is negative exactly when in_convex_hull(x,y,hull) is false.", "quantifier": "every closed hull, every point", "why_tests_cant": "All positions relative to all edges, including the shortcuts taken when an edge line is farther than the current minimum.", "anchors": ["include/vif/math/convex_hull.hpp:60-85", "include/vif/math/convex_hull.hpp:196-246"]}
{"id": "C94", "title": "in_convex_hull recognises the orientation of the hull", "statement": "For a hull given by its vertices as a closed convex polygon, in_convex_hull accepts exactly the points on the inner side of every edge, whether the vertices are in clockwise or counter-clockwise order and whichever vertex comes first.", "quantifier": "every closed convex polygon, every coordinate type, every point", "why_tests_cant": "All polygons, including those with consecutive vertices on a line; both orientations.", "anchors": ["include/vif/math/convex_hull.hpp:40-58", "include/vif/math/convex_hull.hpp:152-194"]}
{"id": "C95", "title": "Bilinear interpolation of an image", "statement": "bilinear(map,x,y) returns the pixel at integer positions, is a continuous function of the position in the whole plane, stays between the four pixels around the position inside the image, and reproduces every image of the form a+bx+cy+dxy also outside; with axes mx, my it does so in the coordinates of the axes. bilinear_strict is bilinear inside the image and the default value outside. rebin onto the same axes returns the image.", "quantifier": "every image, all increasing axes, all positions", "why_tests_cant": "All positions relative to the pixel grid, including the edges and beyond, for images of every size; continuity is not testable.", "anchors": ["include/vif/math/interpolate.hpp:155-269"]}
{"id": "C96", "title": "Bicubic interpolation of an image", "statement": "bicubic_strict(map,x,y,def) returns the pixel at integer positions that have enough neighbours, is a continuous and smooth function of the position there, reproduces images of the form a+bx+cy+dxy and returns def at all other positions, without reading outside of the image.", "quantifier": "every image, all positions", "why_tests_cant": "All positions and image sizes; continuity and smoothness are not testable.", "anchors": ["include/vif/math/interpolate.hpp:460-488"]}
{"id": "C97", "title": "Angular distance on the sphere", "statement": "angdist and angdistr return the great-circle angle between the two directions: never NaN in exact arithmetic, symmetric, zero exactly when the two positions denote the same direction, at most 180 degrees, obeying the triangle inequality, and equal to the coordinate difference along a meridian or the equator. The vector forms do so element by element and refuse different dimensions.", "quantifier": "all pairs and triples of positions, all vectors", "why_tests_cant": "A continuum of positions; the triangle inequality ranges over all triples.", "anchors": ["include/vif/astro/astro.hpp:22-74 angdist, angdistr"]}
{"id": "C98", "title": "Radius test agrees with the distance", "statement": "angdist_less(ra,dec,ra0,dec0,radius) is true exactly for the elements whose angdist to (ra0,dec0) is below the radius.", "quantifier": "all positions, all radii", "why_tests_cant": "The code compares squared sines instead of angles, so agreement is a statement about all angles.", "anchors": ["include/vif/astro/astro.hpp:76-103 angdist_less"]}
{"id": "C99", "title": "Normalisation of coordinates", "statement": "normalize_coordinates terminates, leaves the direction on the sky unchanged and brings RA into [0,360] and Dec into [-90,90]; normalised coordinates are not modified.", "quantifier": "all coordinates", "why_tests_cant": "Loops driven by the values; termination and range for all values cannot be sampled.", "anchors": ["include/vif/astro/astro.hpp:140-170 normalize_coordinates"]}
{"id": "C100", "title": "Rotation about the vernal equinox", "statement": "angrot_vernal rotates directions about the axis through RA=0, Dec=0: distances are kept, rotations compose by adding angles, the opposite angle undoes it, RA comes back in [0,360) and Dec in [-90,90]. Rotating a position by minus its vernal_angle puts it on the equator.", "quantifier": "all positions and angles", "why_tests_cant": "Algebraic laws over a continuum of positions and angles.", "anchors": ["include/vif/astro/astro.hpp:172-227 vernal_angle, angrot_vernal"]}
{"id": "C101", "title": "Moving a position", "statement": "move_ra_dec moves a position by ddec arcseconds along its meridian, exactly; a move by dra changes the position by at most |dra| arcseconds, exactly dra on the equator, and combined moves by at most |dra|+|ddec|.", "quantifier": "all positions away from the poles, all displacements", "why_tests_cant": "A bound for all positions and displacements.", "anchors": ["include/vif/astro/astro.hpp:105-138 move_ra_dec"]}
{"id": "C102", "title": "Unit conversions", "statement": "uJy2mag and mag2uJy are inverse of each other, as are lsun2uJy and uJy2lsun (with rest and observed wavelength), lsun2mag and mag2lsun, uJy2cgs and cgs2uJy (with micron and Angstrom wavelengths). Five magnitudes are a factor 100 in flux, brighter is a smaller magnitude, and the factors are the physical ones.", "quantifier": "all fluxes, magnitudes, wavelengths, distances, redshifts and zero points", "why_tests_cant": "Round trips over a continuum of values in five variables.", "anchors": ["include/vif/astro/astro.hpp:428-513"]}
{"id": "C103", "title": "Flux of an SED through a filter", "statement": "sed2flux(flam,fres,lam,sed) is the integral of the product of the interpolated filter and SED, computed by the trapezium rule on the union of the two grids: it is linear in the SED, returns the constant for a constant SED and a normalised filter, lies between the bounds of the SED, and is NaN exactly when the SED does not cover the filter.", "quantifier": "all grids, filters and SEDs", "why_tests_cant": "All interleavings of two grids of any length.", "anchors": ["include/vif/astro/astro.hpp:1283-1335 sed2flux"]}
{"id": "C104", "title": "Luminosity in a wavelength region", "statement": "sed_luminosity(lam,sed,l0,l1) is the integral of sed/lam between l0 and l1, and NaN when the SED does not cover the region.", "quantifier": "all SEDs and regions", "why_tests_cant": "All positions of the limits relative to the grid.", "anchors": ["include/vif/astro/astro.hpp:1369-1385 sed_luminosity"]}
{"id": "C105", "title": "Sexagesimal coordinates round trip", "statement": "sex2deg reads 'h:m:s' texts as the angle they denote, sign included, and returns false with NaN coordinates for any other text; deg2sex writes an angle with minutes and seconds between 0 and 60, and sex2deg reads it back to the precision of the written seconds.", "quantifier": "all texts, all coordinates", "why_tests_cant": "All texts and a continuum of angles; the sign of angles near zero is a boundary that samples miss.", "anchors": ["include/vif/astro/astro.hpp:1028-1130 sex2deg, deg2sex"]}
{"id": "C106", "title": "Means", "statement": "mean, weighted_mean, optimal_mean and fraction_of return the arithmetic, weighted and inverse-variance weighted means and the fraction of true elements: between the bounds of the data, equivariant under shift and scale, minimising the (weighted) sum of squares; the uncertainty of optimal_mean is the smallest of all unbiased linear combinations; different dimensions are refused.", "quantifier": "all vectors of data, weights and uncertainties", "why_tests_cant": "Optimality ranges over all competing estimates; data of any length.", "anchors": ["include/vif/math/reduce.hpp:19-113"]}
{"id": "C107", "title": "Measures of spread and sigma clipping", "statement": "rms and stddev are the root mean square and the root of the mean squared deviation, invariant under shifts and zero exactly for constant data; mad is the median absolute deviation of the non-NaN values; sigma_clip marks exactly the values within sigma*1.48*mad of the median, never NaN, more when sigma grows, and more than half of the values for sigma >= 1/1.48.", "quantifier": "all vectors, all sigma", "why_tests_cant": "All data including NaN, of any length; independence of the order in which the in-place median leaves the data.", "anchors": ["include/vif/math/reduce.hpp:256-266, 451-475"]}
{"id": "C108", "title": "Weighted percentiles", "statement": "weighted_percentile(v,w,p) returns a value of v with positive weight such that the values below it have less than the fraction p of the weight and those up to it at least p, ignoring NaN values and NaN weights; NaN if there is no weight; independent of the order of the data; weighted_median with equal weights is the median.", "quantifier": "all data and weights, all p in (0,1]", "why_tests_cant": "All data of any length with ties, NaN values and weights.", "anchors": ["include/vif/math/reduce.hpp:170-206 weighted_percentile, weighted_median"]}
{"id": "C109", "title": "Adaptive integration of a function", "statement": "integrate_func(f,x0,x1,e) returns the first Romberg estimate that agrees with the previous one to the relative precision e, which is the integral of f to about this precision, exact for polynomials of low degree; it always terminates with a defined result.", "quantifier": "all functions, intervals and precisions", "why_tests_cant": "Quantifies over all integrands; termination depends on the integrand.", "anchors": ["include/vif/math/reduce.hpp:881-916 integrate_func"]}
{"id": "C110", "title": "Integral of a Gaussian profile", "statement": "integrate_gauss(x0,x1,xc,xw,amp) is the integral between x0 and x1 of the Gaussian profile with centre xc, width xw and total amp; integrate_gauss_2d the integral over a rectangle of the product of two profiles.", "quantifier": "all intervals, centres, widths and amplitudes", "why_tests_cant": "Equality of real integrals for all parameters.", "anchors": ["include/vif/math/reduce.hpp:918-936 integrate_gauss, integrate_gauss_2d"]}
{"id": "C111", "title": "Template fit", "statement": "template_fit returns, for each template, the amplitude that minimises the chi-square against the measurements (the only one), this chi-square and the fluxes of the scaled template; bfit is the template with the smallest chi-square (first of them without renorm); every Monte Carlo run is the same fit on the perturbed data; with upper limits the limits enter with their weight and filters without error are ignored.", "quantifier": "all libraries of any size, all data, errors and simulations", "why_tests_cant": "Optimality over all amplitudes and all templates; libraries of arbitrary size.", "anchors": ["include/vif/astro/template_fit.hpp:59-250 template_fit"]}
{"id": "C112", "title": "Fit of sums of templates", "statement": "multi_template_fit examines every allowed combination of one template from each library and returns the combination and amplitudes with the smallest chi-square among all allowed combinations and all amplitudes, with the corresponding fluxes; also with upper limits and without LAPACK.", "quantifier": "all numbers of libraries and templates, all constraints, all data", "why_tests_cant": "Optimality ranges over all combinations and all real amplitudes; a stalled loop shows up only with degenerate templates or constraints.", "anchors": ["include/vif/astro/template_fit.hpp:255-538 multi_template_fit"]}
{"id": "C113", "title": "Weight of an upper limit", "statement": "limweight is the exact -2 log of the probability for a model above -3 sigma of the limit and within 0.3% of it elsewhere, positive, decreasing with the distance below the limit, and vanishing far below it.", "quantifier": "all real distances", "why_tests_cant": "A continuum of arguments; errors concentrate near the switch between two formulas.", "anchors": ["include/vif/astro/template_fit.hpp:55-84 limweight"]}
{"id": "C114", "title": "Merging catalogues", "statement": "Whatever catalogues are added to or matched with a pool, in any order: the pool has one position and origin per source, each source of a catalogue that is kept has its own index in the pool; add keeps the sources of the pool in place and gives each selected source either the index of the pool source with which it is mutually closest or a new entry with its own position; match keeps exactly the mutually closest sources and does not change the pool; merge puts the value of each source at its index and the default elsewhere, once per column; fluxes of several catalogues can be merged.", "quantifier": "all sequences of calls, all catalogues and selections, all results of the matcher", "why_tests_cant": "Invariant over arbitrary sequences of calls on catalogues of arbitrary size.", "anchors": ["include/vif/astro/catalog_merge.hpp:138-301, 448-474 catalog_pool, catalog_t"]}
{"id": "C115", "title": "DS9 region files", "statement": "Reading a region file never fails: every line adds at most one region, which is a circle with a centre and a radius or a box with a centre, two sides and an angle; regions written to a file are read back as they were, up to the printed digits, in sky and in pixel coordinates; converting to sky coordinates and back is the identity; a coordinate system line applies to the regions after it, and a text is read whole.", "quantifier": "all region lists, all files, all formatting functions that the reader inverts, all coordinate systems", "why_tests_cant": "Arbitrary files and region lists; the round trip depends on conventions of pixel origin and units at both ends.", "anchors": ["include/vif/astro/ds9.hpp:1-246 read_regions, write_regions_wcs, write_regions_physical, read_regions_physical"]}
{"id": "C116", "title": "Circular masks and masks of regions", "statement": "circular_mask gives each pixel the fraction of its four corners in the disc, 1 exactly for the pixels wholly in the disc, and aborts on a negative radius; masking a region only adds pixels: for a circle those with more than two corners in the disc, for a box exactly those whose centre is in the rotated box; pixels out of the mask are never touched.", "quantifier": "all dimensions, centres, radii, sides and angles, all initial masks", "why_tests_cant": "Continuous families of discs and rotated boxes; the code prunes the region with rounded bounds, where off by one errors hide.", "anchors": ["include/vif/astro/image.hpp:358-387 circular_mask", "include/vif/astro/ds9.hpp:247-289 mask_region"]}
{"id": "C117", "title": "Radial and Gaussian profiles", "statement": "gaussian_profile puts in each pixel the integral of the normalised Gaussian over the square of the pixel, so that pixels are positive, their sum is the part of the Gaussian that falls in the image (at most 1) and the default profile is symmetric about the central pixel for odd dimensions; the default circular mask has the same centre; radial_profile is the average of the image over rings around this centre.", "quantifier": "all dimensions, widths and positions, all images", "why_tests_cant": "Integrals over the plane and sums of arbitrary size.", "anchors": ["include/vif/astro/image.hpp:385-426 circular_mask, radial_profile, gaussian_profile"]}
{"id": "C118", "title": "Cutouts of sources", "statement": "qstack adds, for each source covered by an image and (unless NaN are kept) wholly finite there, the square of 2*hsize+1 pixels around its rounded position, NaN out of the image, with its identifier, image and sub-pixel offset, once per source and in the order of the images and sources; when several images cover a source each pixel is the first finite value; what was in the cube before is kept; with weights the two cubes are parallel and the same sources are kept as without.", "quantifier": "all images, numbers of images and sources, positions, sizes and options", "why_tests_cant": "Arbitrary positions relative to the edges and arbitrary overlaps of several images.", "anchors": ["include/vif/astro/qstack.hpp:88-355 qstack"]}
{"id": "C119", "title": "Products of matrices", "statement": "a*b of matrices is the matrix of the sums over k of a(i,k)*b(k,j), and aborts when the inner dimensions differ; it is associative, make_identity is neutral on both sides, and the transpose of a product is the product of the transposes in the other order; products with a vector on either side are those of a matrix with one column or row; diagonal and as_diagonal read and write the diagonal; the matrices of make_scale, make_translation and make_rotation act on (x,y,1) as the scaling, translation and counter-clockwise rotation, and compose by products, sums and sums of angles.", "quantifier": "all dimensions (including zero), elements of any ring, scales, shifts and angles", "why_tests_cant": "Algebraic laws over arbitrary dimensions and elements.", "anchors": ["include/vif/math/bits/matrix-types.hpp:477-535 operator*", "include/vif/math/bits/matrix-functions.hpp:7-103 transpose, diagonal, as_diagonal, make_identity, make_scale, make_translation, make_rotation"]}
{"id": "C120", "title": "Keywords of FITS headers", "statement": "getkey gives the value of the first card of that name (between the equal sign and the comment, without blanks), or false; setkey replaces the first card of that name, keeping its comment unless another is given, or adds a card before END, and afterwards getkey gives that value for this key and the previous ones for all others; keys and cards that are too long are refused and leave the header unchanged.", "quantifier": "all headers made of whole cards, keys, values and comments", "why_tests_cant": "Arbitrary sequences of cards, texts containing the markers themselves, comments of any length.", "anchors": ["include/vif/io/fits/base.hpp:779-895 getkey, setkey"]}
{"id": "C121", "title": "Parsed FITS headers", "statement": "serialize_header writes one card of 80 characters per keyword, and parse_header reads back the same list of keywords (names, values, comments); a header that is parsed and written again, as is done before any WCS conversion, keeps its content.", "quantifier": "all lists of keywords and all headers", "why_tests_cant": "Arbitrary names, values with quotes and slashes, comments and continuation cards.", "anchors": ["include/vif/io/fits/base.hpp:897-1020 parse_header, serialize_header"]}
{"id": "C122", "title": "Headers with WCS keywords", "statement": "make_wcs_header writes one card per parameter (pixel scale, reference pixel and position, projection, dimensions) and each can be read back with getkey; it fails if one of the required parameters is missing; the form with texts gives the same header as the form with numbers and refuses texts that are not understood; filter_wcs keeps exactly the cards of the WCS, in order and with their values.", "quantifier": "all parameters, all lists of texts and all headers made of whole cards", "why_tests_cant": "Arbitrary parameters and headers, with repeated keywords and names that begin like others.", "anchors": ["include/vif/astro/wcs.hpp:20-230 make_wcs_header, filter_wcs"]}
{"id": "C123", "title": "Axes and conversions of a WCS", "statement": "The axes of a wcs are those of the file in reverse order, with the right size, unit and type; ad2xy and xy2ad convert each position separately on the axes of the sky, never access an element out of bounds, and are inverse of each other; x2w and w2x convert an axis with the other coordinates at the reference point and are inverse of each other, in any unit allowed for the axis (others are refused); build_axis gives the values of pixels 1 to n.", "quantifier": "all WCS read by wcslib (any number of axes, any order), all positions, all units", "why_tests_cant": "Any number and order of axes and any conversion function of the underlying library.", "anchors": ["include/vif/astro/wcs.hpp:300-540 wcs", "include/vif/astro/wcs.hpp:700-1131 ad2xy, xy2ad, x2w, w2x, build_axis"]}
{"id": "C124", "title": "Life of a WCS", "statement": "Whatever the sequence of constructions, moves, changes, updates and destructions of wcs objects, the data of the library are owned by one object and freed exactly once, and after update() the conversions use the current parameters.", "quantifier": "all programs on any number of wcs objects", "why_tests_cant": "Arbitrary sequences of operations with moves between objects, including to themselves.", "anchors": ["include/vif/astro/wcs.hpp:351-393, 542-629 wcs"]}
{"id": "C125", "title": "Columns of FITS tables are read back", "statement": "A vector of numbers written with write_column is read back by read_column with the same dimensions and elements, in column-oriented and in row-oriented tables, after any number of other columns were written, and after the file is closed and opened again; writing, updating or removing a column does not change what is read under other names; update_column gives the new values; remove_column removes; allocate_column gives zeros; texts are read back without the blanks at their ends.", "quantifier": "all tables, vectors of any dimensions and contents, sequences of columns of any length", "why_tests_cant": "Any number of columns and dimensions, including null dimensions, and any order of operations.", "anchors": ["include/vif/io/fits/table.hpp:1045-1345 write_column", "include/vif/io/fits/table.hpp:375-661 read_column", "include/vif/io/fits/table.hpp:1449-1535 allocate_column, remove_column, update_column", "include/vif/io/fits/base.hpp:462-484"]}
{"id": "C126", "title": "Which columns can be read in a vector", "statement": "A column can be read in a vector of the type it was written from; allowing narrowing only adds conversions; without narrowing, all the values of the column are kept; the number of dimensions must be the same, unless dimensions can be added (ones before the others) or all of them flattened, and in all cases all the elements are read, in order; other types, dimensions or names are errors.", "quantifier": "all pairs of types, all columns, all options and numbers of dimensions", "why_tests_cant": "All values of all types, and arrays of any dimensions.", "anchors": ["include/vif/io/fits/base.hpp:62-330 traits", "include/vif/io/fits/table.hpp:471-661"]}
{"id": "C127", "title": "Parts of FITS columns", "statement": "read_elements with the first indices and a range for each other dimension reads exactly the elements of the column with these indices, in order; update_elements changes exactly these elements; an index too large or a vector of wrong dimensions is an error and changes nothing.", "quantifier": "all columns of both formats, all indices and vectors", "why_tests_cant": "Any number of dimensions and any position in tables of any size.", "anchors": ["include/vif/io/fits/table.hpp:838-990 read_elements", "include/vif/io/fits/table.hpp:1620-1712 update_elements", "include/vif/io/fits/table.hpp:153-269 read_column_info"]}
{"id": "C128", "title": "Distance of pixels to segments", "statement": "segment_distance returns the squared distance of every pixel to a pixel of a segment and the index of that pixel, and gives every pixel without segment the value of a segment; pixels of segments keep their value, with distance zero and their own index; the pixel found is nearest among the ones found by its neighbours and never further than the number of steps to any segment; with no segment nothing is changed. The pixel is the nearest one, and the value is the one of this pixel.", "quantifier": "all segmentation maps of any dimensions and contents", "why_tests_cant": "The errors of the growth need several segments in particular positions; all maps cannot be tried.", "anchors": ["include/vif/astro/image.hpp:1281-1391 segment_distance"]}
{"id": "C129", "title": "Convolution through Fourier space", "statement": "convolve2d, with a kernel or with the result of convolve2d_prepare_kernel, returns an image of the dimensions of the map that is the convolution of the map, zero outside of its borders, with the kernel, whatever the dimensions of both; a prepared kernel serves all maps of the same dimensions; kernels of even dimensions cannot be prepared; the result is the one of the direct summation.", "quantifier": "all maps and kernels of any dimensions and contents (exact arithmetic)", "why_tests_cant": "An identity of sums over all dimensions and contents; a few kernels that are zero at the border hide the missing row and column.", "anchors": ["include/vif/astro/image.hpp:460-545 convolve2d_prepare_kernel, convolve2d", "include/vif/math/fourier.hpp:20-99 fft, ifft"]}
{"id": "C130", "title": "Repeated convolutions with one object", "statement": "An object of batch_convolve2d returns, for every map of any sequence of maps of the same dimensions, the convolution of the map with the kernel; maps given before have no influence. With cyclic set, it returns the cyclic convolution.", "quantifier": "all kernels, all sequences of maps of any length and dimensions", "why_tests_cant": "The state after any number of calls; maps that are square hide the errors.", "anchors": ["include/vif/astro/image.hpp:549-731 convolver2d, batch_convolve2d"]}
{"id": "C131", "title": "Kernels from one image to another", "statement": "The convolution of an image with the kernel that make_transition_kernel returns for it and another image is the other image, if the transform of the first has no zero; images of any dimensions are accepted.", "quantifier": "all pairs of images of the same dimensions", "why_tests_cant": "An identity between transforms for all dimensions and contents.", "anchors": ["include/vif/astro/image.hpp:737-750 make_transition_kernel", "include/vif/math/fourier.hpp:20-99"]}
{"id": "C132", "title": "Images written to FITS files", "statement": "Writing an image gives the current HDU its dimensions (reversed) and pixels, and changes no other HDU; it is refused if the HDU has data already. Reading it in a vector of the same number of dimensions gives the same vector. update replaces the pixels and nothing else, if the dimensions are the same and if the type of the vector can be kept in the image.", "quantifier": "all files of any number of HDUs, all images of any dimensions and types", "why_tests_cant": "Any number of HDUs, any dimensions and all pairs of types.", "anchors": ["include/vif/io/fits/image.hpp:25-133 read_prep_, read", "include/vif/io/fits/image.hpp:223-321 write, write_empty, update"]}
{"id": "C133", "title": "HDUs of FITS files", "statement": "reach_hdu makes the HDU of this index the current one; in a file that can be written, those that do not exist yet are created without data, and those that exist are not moved; remove_hdu removes the current HDU only. Images written one after the other in successive HDUs can all be read back.", "quantifier": "all files, all current positions and indices of HDUs, sequences of images of any length", "why_tests_cant": "The state after any sequence of calls; errors appear only when HDUs are not created in order.", "anchors": ["include/vif/io/fits/base.hpp:555-625 hdu_count, reach_hdu, remove_hdu", "include/vif/io/fits/image.hpp:223-274"]}
{"id": "C134", "title": "Pixels and parts of FITS images", "statement": "read_pixel returns the element of the image at the given indices and fails outside of the image. read_subset returns the part of the image selected by indices and ranges, one for each dimension, with the dimensions selected; all that is out of the image is an error.", "quantifier": "images of any number of dimensions, all indices and ranges", "why_tests_cant": "Any number of dimensions and any range.", "anchors": ["include/vif/io/fits/image.hpp:44-112 make_indices_", "include/vif/io/fits/image.hpp:135-198 read_subset, read_pixel"]}
{"id": "C135", "title": "File objects after an error", "statement": "After an error caught by the caller, an object of FITS file can still be used: a file that exists can be opened, and operations on the file that is opened give the same results as if the error had not occurred.", "quantifier": "all sequences of operations of any length, all files", "why_tests_cant": "The history of the object is any sequence of operations and failures.", "anchors": ["include/vif/io/fits/base.hpp:378-462 open, close, check_is_open_, status", "include/vif/io/fits/base.hpp:488-500 read_header", "include/vif/io/fits/table.hpp:585-604 read_column"]}
{"id": "C136", "title": "Segments and peaks of segment_deblend", "statement": "With the default minimum area, the segments of segment_deblend are numbered in order from first_id; each contains its peak, is connected, and all its pixels are finite, at least equal to the threshold and not brighter than the peak. Peaks are at least deblend_threshold steps apart, and a pixel above the threshold that is brighter than all others at less than deblend_threshold steps is a peak. A pixel that is not a peak belongs to the segment of one of the nearest brighter pixels, that with the closest peak. Pixels above the threshold connected to a peak are all in a segment, for any image, and the output can be used again.", "quantifier": "all images of any dimensions with finite and non-finite values, all thresholds, distances and first identifiers", "why_tests_cant": "Any image and any order of the values.", "anchors": ["include/vif/astro/image.hpp:992-1179 segment_deblend"]}
{"id": "C137", "title": "Areas, fluxes and barycentres of segment_deblend", "statement": "The area, flux and barycentre of a segment of segment_deblend are the number of its pixels, the total of their values, and their mean position weighted by the values, over the pixels at least equal to centroid_flim times the peak.", "quantifier": "all images of any dimensions and all parameters", "why_tests_cant": "Sums over segments of any shape and size.", "anchors": ["include/vif/astro/image.hpp:1121-1179 segment_deblend", "include/vif/astro/image.hpp:1274-1276 segment_deblend"]}
{"id": "C138", "title": "Small segments of segment_deblend", "statement": "With a minimum area, the segments with fewer pixels are removed and the others are kept with their identifiers, peaks and pixels. All the pixels of a small segment are given to the same kept segment, which is next to it, that with the closest peak; they are erased only if no kept segment is next to them. The measurements of the kept segments include the pixels they are given, and their peak is their brightest pixel.", "quantifier": "all images of any dimensions, all minimum areas and parameters", "why_tests_cant": "Any number of segments given to one another, in any order and of any shape.", "anchors": ["include/vif/astro/image.hpp:1181-1279 segment_deblend"]}
{"id": "C139", "title": "Regridding by interpolation", "statement": "Each pixel of the image returned by regrid_interpolate is the value of the source image at the position of this pixel, by the interpolation method that is asked for, at all positions covered by the source image, and it is not finite elsewhere; with conserve_flux it is multiplied by the area of the pixel in the source. linearize changes the values only by the approximation of the map.", "quantifier": "source and destination images of all sizes, all affine maps between the grids, all methods, all pixel values", "why_tests_cant": "Any size, map and values; errors appear only at the edges, for shifts by whole pixels or for different sizes.", "anchors": ["include/vif/astro/image.hpp:1808-1832 regrid_nearest, regrid_linear, regrid_cubic", "include/vif/astro/image.hpp:1864-2005 regrid_interpolate"]}
{"id": "C140", "title": "Flux conservation of drizzling", "statement": "regrid_drizzle gives each destination pixel, as weight, the total area of its common parts with the projected source pixels, and as value the mean of these source pixels for these areas. When all projections are inside the destination, the sum of values times weights is pixfrac^2 times the sum of the source pixels. An image projected on its own grid is unchanged.", "quantifier": "images of all sizes, all maps under which the projected pixels are rectangles along the axes (any shift and any change of scale on each axis), all pixfrac", "why_tests_cant": "Any size, shift, scale and pixel values; errors appear only for pixels across the border.", "anchors": ["include/vif/astro/image.hpp:1619-1806 polygon clipping", "include/vif/astro/image.hpp:1834-1862", "include/vif/astro/image.hpp:2007-2199 regrid_drizzle"]}
{"id": "C141", "title": "Brightness and linearization in drizzling", "statement": "The result of regrid_drizzle is for any map a weighted mean of source pixels divided by the area of their projections, with the same weights for all images; so for an affine map it is between the smallest and the largest source pixel divided by this area, and a uniform image stays uniform. linearize gives the same result for an affine map; for a shift by whole pixels it gives the shifted image.", "quantifier": "images of all sizes, all maps between the grids, all pixfrac", "why_tests_cant": "Any size, map and pixel values.", "anchors": ["include/vif/astro/image.hpp:2007-2199 regrid_drizzle"]}
{"id": "C142", "title": "Cutouts of a source from several images", "statement": "get_cutout of a cutout_extractor returns a square of odd size centred on the source that is at least as large as asked for. Each pixel has the first finite value found at this position in the images, in their order, or the default value when there is none. The function returns true when one of the images covers part of the square, and the header it returns describes the cutout.", "quantifier": "all lists of images, sizes and positions of the source, sizes of the cutout, pixel values and default values", "why_tests_cant": "Any number and size of images, and positions inside, across the border or outside of each of them.", "anchors": ["include/vif/astro/image.hpp:1416-1590 cutout_extractor"]}
{"id": "C143", "title": "Conversions between values and text", "statement": "from_string accepts a text for an integer type exactly if it is a number in the range of the type, with a sign or not and with spaces around or not, and gives this number. Values converted by to_string are read back by from_string: integers of all types, booleans, characters, texts, floating point numbers, NaN and infinities. The vector version converts each element on its own and resizes its output.", "quantifier": "all texts, all values of all integer types, all words and characters, all lists of texts", "why_tests_cant": "Infinitely many texts; any number of spaces and digits, and all widths of integers.", "anchors": ["include/vif/core/string_conversion.hpp:134-222 to_string, from_string, from_string_fallback"]}
{"id": "C144", "title": "A fit with mpfit respects its options and never gets worse", "statement": "mpfit calls the function of the caller, in all its evaluations, with parameters that are frozen (or whose limits are equal) at their starting values. The parameters it returns are within their limits if the start is. It returns either the start or parameters with smaller deviates. It says it is successful only when a test of convergence is met, and then it is at a minimum within the limits; it stops after the largest number of iterations, and it ends. The chi square is that of the parameters returned. Frozen parameters have no error and no covariance.", "quantifier": "all functions to fit (including ones that return NaN), starts, options and numbers of parameters; any linear algebra", "why_tests_cant": "Any function can be fitted; the number of trials depends on it, and nothing relates what is checked on one function to another.", "anchors": ["include/vif/math/mpfit.hpp:30-176 mpfit_options, mpfit_fdjac2", "include/vif/math/mpfit.hpp:524-869 mpfit"]}
{"id": "C145", "title": "The factorization of the derivatives in mpfit", "statement": "The triangular matrix and the vector that mpfit computes from the derivatives and the deviates have the same scalar products as these, whatever the order in which the parameters are taken; the test on gtol holds exactly if each derivative has a scalar product with the deviates that is less than gtol times its norm, and does not depend on the unit of the deviates.", "quantifier": "all matrices of derivatives of any size, of any rank, and all deviates", "why_tests_cant": "All sizes of matrices and all values.", "anchors": ["include/vif/math/mpfit.hpp:90-114 mpfit_enorm", "include/vif/math/mpfit.hpp:178-246 mpfit_qrfac", "include/vif/math/mpfit.hpp:586-652 mpfit"]}
{"id": "C146", "title": "The steps of mpfit solve the damped problem", "statement": "Each step that mpfit tries is a minimum of the squares of the linearized deviates plus a damping times the squares of the scaled step. Without damping the step is not longer than the bound by more than a tenth. The damping that is kept belongs to the step when its length is within a tenth of the bound, and the search begins with the damping of the previous step when it lies within its bounds.", "quantifier": "all derivatives of any size, deviates, scales that are not zero, positive bounds and starting values of the damping", "why_tests_cant": "All sizes of matrices and all values; the loop depends on them.", "anchors": ["include/vif/math/mpfit.hpp:248-460 mpfit_qrsolv, mpfit_lmpar"]}
{"id": "C147", "title": "The covariance matrix of mpfit", "statement": "The covariance matrix is symmetric and is the inverse of the matrix of the scalar products of the derivatives, with the parameters in their original order. Parameters that the deviates do not constrain have a variance of zero.", "quantifier": "all derivatives of any size, and all orders in which the factorization takes the parameters", "why_tests_cant": "All sizes of matrices, values and permutations.", "anchors": ["include/vif/math/mpfit.hpp:462-522 mpfit_covar"]}
{"id": "C148", "title": "Random positions in a region", "statement": "randpos_uniform_circle and randpos_uniform_box give, when they return true, exactly the requested number of positions, all in the circle (or box) and in the region; they are the positions drawn that fall in the region, in order, none being left out or used twice. They return false only if max_iter positions drawn for one object are out of the region, after drawing no more than max_iter for each object. In a circle, positions are uniform in area.", "quantifier": "all sequences of random numbers, regions, numbers of objects, max_iter and contents of the vectors before the call", "why_tests_cant": "The region is any function; the sequence of random numbers cannot be chosen in a test.", "anchors": ["include/vif/astro/astro.hpp:703-830 randpos_rejection_sampling, randpos_uniform_box, randpos_uniform_circle"]}
{"id": "C149", "title": "Correlated random positions", "statement": "randpos_power_base gives eta to the power of the number of levels positions. randpos_power_circle gives, when it succeeds, the number of positions that the options ask for; they satisfy the criterion of the caller without tolerance and are within the circle. The rejection sampling uses max_iter.", "quantifier": "all sequences of random numbers, criteria and options with at least one level", "why_tests_cant": "The criterion is any function; sizes and radii change at each level; the sequence of random numbers cannot be chosen in a test.", "anchors": ["include/vif/astro/astro.hpp:832-1026 randpos_power_options, randpos_power_base, randpos_power_circle"]}
{"id": "C150", "title": "Angular correlation", "statement": "angcorrel gives for each bin of distances the Landy-Szalay estimator of the correlation from the numbers of pairs of different objects, of an object and a random position, and of random positions at a distance in the bin. It does not depend on the order of the objects; if the random positions are those of the objects it is zero.", "quantifier": "all lists of objects, random positions, and bins that do not overlap", "why_tests_cant": "All lists of positions and bins; the estimator is a statistic whose small bias is not visible in a test with random positions.", "anchors": ["include/vif/astro/astro.hpp:663-701 angcorrel"]}
{"id": "C151", "title": "Libraries of filters", "statement": "read_filter_db gives the value of the first line 'name = path' of each name, relative to the directory of the library, and ignores comments and other lines. get_filter returns the response in the file of a known filter, normalized to unit area, with the integrated wavelength; for name:range:min:max a response which is constant between the two wavelengths; for an unknown name it refuses and suggests the closest names. get_filters returns all of them in order or says that one is refused. get_filter_id gives the identifier of each name and npos for unknown ones, and returns true exactly if all are known.", "quantifier": "all contents of libraries and names; all responses and wavelengths", "why_tests_cant": "Any file; the suggestions depend on all the names.", "anchors": ["include/vif/astro/astro.hpp:1502-1732 read_filter_db, get_filter, get_filters, read_filter_map, get_filter_id"]}
{"id": "C152", "title": "Cutouts of many sources", "statement": "pick_sources appends to the cube, in order, the square around the rounded position of each source whose square is in the image and has only finite pixels, and to ids the position of this source in the list; other sources are left out.", "quantifier": "all images, lists of sources and half sizes", "why_tests_cant": "All positions relative to the borders and to the rounding.", "anchors": ["include/vif/astro/astro.hpp:1244-1275 pick_sources"]}
{"id": "C153", "title": "Choice of a band", "statement": "get_band finds a band exactly if one and only one band matches the expressions, and gives its position.", "quantifier": "all lists of bands and expressions", "why_tests_cant": "Any expression and list.", "anchors": ["include/vif/astro/astro.hpp:1139-1242 get_band"]}
{"id": "C154", "title": "Cosmological functions of the redshift", "statement": "lumdist, lookback_time and vuniverse are positive and increase with the redshift; propsize is the angular distance times an arcsecond. On a vector, the result for each redshift is that of the function for this redshift, or is on the straight line between its values at two redshifts around it, a fixed ratio apart and within the sample; redshifts that are negative or zero have the value of the function.", "quantifier": "all cosmologies with matter and dark energy that are not negative; all vectors of redshifts and numbers of points", "why_tests_cant": "All samples of redshifts; the function has no closed form to compare with.", "anchors": ["include/vif/astro/astro.hpp:288-428 cosmo_t, get_cosmo, lumdist, lookback_time, propsize, vuniverse, VECTORIZE_INTERPOL"]}
{"id": "C155", "title": "Logarithmic ranges", "statement": "rgen_log(i, j, n) with positive bounds has n numbers from i to j, each being the previous one times the same factor; they increase if i < j. Bounds that are not positive are refused.", "quantifier": "all bounds and numbers of points", "why_tests_cant": "Any bounds and length.", "anchors": ["include/vif/math/base.hpp:214-231 rgen_log"]}
{"id": "C156", "title": "Fit of a point source", "statement": "psffit(img, err, psf, pos) returns the background and the flux that minimise the sum of the squares of the residuals, divided by the errors, over the pixels covered by the psf centered on the position; pixels out of the image, or that are not finite, have no weight (zero with the largest error). If the image is a background plus a flux times the psf, these are the results, whatever the errors. The result is NaN exactly if the psf is constant.", "quantifier": "all images, errors, psfs, positions inside or outside of the image", "why_tests_cant": "All images and positions relative to the borders.", "anchors": ["include/vif/astro/astro.hpp:223-273 psffit"]}
{"id": "C157", "title": "Subtraction of a source", "statement": "srcsub(img, psf, flux, pos) subtracts flux times the psf, centered on the position, from the pixels of the image that it covers and does not change the others.", "quantifier": "all images, psfs, fluxes and positions inside or outside of the image", "why_tests_cant": "All positions relative to the borders.", "anchors": ["include/vif/astro/astro.hpp:275-287 srcsub"]}
{"id": "C158", "title": "Translation of an image", "statement": "translate(img, dx, dy, def) has at each pixel the interpolated value of the image at its position minus (dx, dy), and the default value if this is out of the image; for integers, pixels move without change.", "quantifier": "all images, shifts and default values", "why_tests_cant": "All sizes and shifts, borders included.", "anchors": ["include/vif/astro/image.hpp:126-137 translate"]}
{"id": "C159", "title": "Images of point sources", "statement": "make_psf with 'gaussian,amplitude,width' and 'gaussring,...' has at each pixel the value of the formula for its distance to the center; with 'file,name' the square of the file around its peak, of a size where the profile along the axes is zero, centered on the position, and zero elsewhere. Other models, too few parameters and numbers that cannot be read are refused.", "quantifier": "all strings, dimensions, positions and files", "why_tests_cant": "All parameters, positions and contents of files.", "anchors": ["include/vif/astro/astro.hpp:1386-1500 make_psf"]}
{"id": "C160", "title": "Reading several program arguments", "statement": "read(arg_list(a, b, ...)) gives to each variable the value of the last argument with its name (the last part of the expression, or the label given with name()), independently of the other variables, and leaves it unchanged without one. Arguments that set no variable are reported as unrecognized.", "quantifier": "all lists of variables, expressions and arguments", "why_tests_cant": "All lists of names and arguments, in all orders.", "anchors": ["include/vif/utility/argv.hpp:159-228 read_args_", "include/vif/utility/argv.hpp:274-333 program_arguments, read_args"]}
{"id": "C161", "title": "Writing program arguments", "statement": "program_arguments::write adds name=value for each variable, in order, and changes no variable; reading the same names afterwards gives back the values written.", "quantifier": "all lists of variables and values whose text converts back", "why_tests_cant": "All lists of names, whatever arguments were there before.", "anchors": ["include/vif/utility/argv.hpp:231-272 write_args_"]}
{"id": "C162", "title": "Command lines", "statement": "The command line made by make_cmd or save_args, given to a shell, runs the program with the same arguments.", "quantifier": "all program names and arguments", "why_tests_cant": "All texts, with blanks and quotes anywhere.", "anchors": ["include/vif/utility/argv.hpp:335-361 save_args, make_cmd"]}
{"id": "C163", "title": "Writing a header into a file", "statement": "write_header(hdr) copies every card of the header except those of the structure of the file, so that every other keyword can be read from the file with the value it has in the header, and a header that is read from a file and written into another one stays the same.", "quantifier": "all headers, file contents and keywords", "why_tests_cant": "All headers of any length, with cards in any order and cut anywhere.", "anchors": ["include/vif/io/fits/base.hpp:488-500 read_header", "include/vif/io/fits/base.hpp:684-709 write_header"]}
{"id": "C164", "title": "String keywords of files", "statement": "write_keyword(name, text) followed by read_keyword(name) gives the text back and changes no other keyword; read_keyword reports keywords that do not exist, and reads the logical values T and F as 1 and 0.", "quantifier": "all texts, names and files", "why_tests_cant": "All texts, with blanks and quotes anywhere and of any length.", "anchors": ["include/vif/io/fits/base.hpp:502-540 has_keyword, read_keyword", "include/vif/io/fits/base.hpp:735-758 write_keyword, add_keyword"]}
{"id": "C165", "title": "Lists of FITS files", "statement": "read_sectfits gives, in order, the files named by the lines of the list that are not empty and not comments, relative to the directory of the list, and fails when there are none; read_header_sectfits opens the section asked for, with an error when there is no such section.", "quantifier": "all contents of the list, names and sections", "why_tests_cant": "All texts, with empty lines and comments anywhere.", "anchors": ["include/vif/io/fits.hpp:61-122 read_sectfits, read_header_sectfits, read_header_sectfits_hdu"]}
{"id": "C166", "title": "Symmetric systems, eigenvectors and singular values", "statement": "For a symmetric matrix, solve_symmetric gives the solution of the system, the same with and without LAPACK; eigen_symmetric gives ascending eigenvalues with one orthonormal eigenvector in each row. decompose_svd gives u, s, vt with u*diag(s)*vt equal to the matrix, u and vt orthogonal, s non-negative and descending.", "quantifier": "all matrices and right-hand sides, all implementations of LAPACK that meet their documentation", "why_tests_cant": "The storage by rows of this library and by columns of LAPACK coincide for symmetric test cases; all matrices.", "anchors": ["include/vif/math/bits/matrix-functions.hpp:505-557 decompose_svd", "include/vif/math/bits/matrix-functions.hpp:742-852 solve_symmetric, eigen_symmetric"]}
{"id": "C167", "title": "Distances between all the sources of a catalogue", "statement": "qdist(ra, dec) gives the matrix of the angular distances in arcsec between all pairs of sources.", "quantifier": "all catalogues", "why_tests_cant": "All numbers of sources and all positions, including the poles.", "anchors": ["include/vif/astro/qxmatch.hpp:681-715 qdist"]}
{"id": "C168", "title": "Means of stacked cutouts", "statement": "Each pixel of qstack_mean, of qstack_mean with weights and of qstack_median is the mean, weighted mean or median of that pixel in all the cutouts. Each image of a bootstrap is the mean of exactly the cutouts drawn for it, each with its own weights.", "quantifier": "all cubes, weights and draws", "why_tests_cant": "All dimensions and values, all draws with repetitions.", "anchors": ["include/vif/astro/qstack.hpp:358-371 qstack_mean, qstack_median", "include/vif/astro/qstack.hpp:413-438 qstack_mean_bootstrap"]}
{"id": "C169", "title": "Vectorised functions act element by element", "statement": "A function made vectorial (one or two arguments, scalar with vector, or vectorize_lambda with any mixture of scalars and vectors) returns, at each position, the value of the function for the elements of that position, with the dimensions of the vectors; reusing the memory of a temporary does not change the result; vectors of different dimensions are refused; functions that modify their arguments by reference modify exactly the elements of that position.", "quantifier": "all functions, all vectors and dimensions, all mixtures of scalar and vector arguments", "why_tests_cant": "All functions and numbers of arguments, with the memory of the arguments reused for the result.", "anchors": ["include/vif/core/bits/vectorize.hpp:10-139 VIF_VECTORIZE, VIF_VECTORIZE2, VIF_VECTORIZE_REN", "include/vif/core/bits/vectorize.hpp:141-331 vectorize_lambda_first, vectorize_lambda"]}
{"id": "C170", "title": "Element-wise minimum and maximum", "statement": "min(a, b) and max(a, b), of scalars, vectors or mixtures, give at each position the smaller or larger of the two numbers, whatever the order of the arguments; vectors of different dimensions are refused.", "quantifier": "all vectors, dimensions and numbers, NaN included", "why_tests_cant": "All mixtures of types and NaN positions.", "anchors": ["include/vif/math/reduce.hpp:381-450 min, max"]}
{"id": "C171", "title": "minimize_bfgs stops and reports faithfully", "statement": "minimize_bfgs returns after at most max_iter steps, whatever the function. It reports success only if the minimiser could not progress or the gradient is small at the returned parameters; returned value and parameters belong together; the memory of GSL is given back exactly once on all paths, errors included.", "quantifier": "all behaviours of the minimiser and of the function, all starts and options", "why_tests_cant": "All sequences of answers of GSL, including errors at any step.", "anchors": ["include/vif/math/optimize.hpp:13-150 minimize_bfgs"]}
{"id": "C172", "title": "Translation of an image with cubic splines", "statement": "translate_bicubic(img, dx, dy, def) gives an image of the same size whose pixel (x, y) is the value of the image at (x - dx, y - dy) interpolated smoothly, exactly the pixel for shifts by whole pixels, and def outside of the image.", "quantifier": "all images and shifts", "why_tests_cant": "All sizes, shifts and pixels.", "anchors": ["include/vif/astro/image.hpp:139-155 translate_bicubic"]}
{"id": "C173", "title": "Area of a field from its hull", "statement": "field_area_hull gives the area on the sky in square degrees of the field inside of a closed hull: it is a non-negative number for any positions, does not depend on where the field is on the sky, and open hulls are refused.", "quantifier": "all hulls, positions and sizes on the sky", "why_tests_cant": "All shapes, fields across right ascension 0 and at the poles, large fields.", "anchors": ["include/vif/astro/astro.hpp:518-550 field_area_hull", "include/vif/math/convex_hull.hpp:42-59 convex_hull::validate"]}
{"id": "C174", "title": "Headers given to WCSlib are cleaned of what it does not support, and of nothing else", "statement": "Before the WCS of an image is read, keywords of SIP polynomials, and those of distortion tables when one is announced, are removed from the header, and misspelt units (micron, degree...) are corrected for all axes; all other keywords keep their values and their order; a header without any of them is unchanged; doing it twice is the same as doing it once.", "quantifier": "all headers", "why_tests_cant": "All keywords, orders, values and comments.", "anchors": ["include/vif/astro/wcs.hpp:234-293 impl::wcs_impl::cure_header"]}
{"id": "C175", "title": "The checks of the unit tests fail when they should", "statement": "A check of two floating point numbers, or vectors of them, passes exactly when they have the same dimensions and each pair of elements is equal up to the tolerance, or both NaN; other types must be equal; the final counts are the number of checks and of those that failed, each one being reported.", "quantifier": "all numbers, vectors, dimensions and sequences of checks", "why_tests_cant": "It is what the tests themselves rely on.", "anchors": ["include/vif/test/unit_test.hpp:1-80 check, check_base, check_show_line, reduce_and, is_same"]}
{"id": "C176", "title": "Convolution of tabulated functions", "statement": "convolve(x, y1, y2) gives, at each abscissa, the integral of the product of the first function and of the second function shifted and reversed; it is linear in both functions, symmetric, and an impulse at zero is neutral; tables of different sizes are refused.", "quantifier": "all increasing abscissae and all values", "why_tests_cant": "All tables, irregular abscissae included.", "anchors": ["include/vif/math/transform.hpp:9-37 convolve"]}
{"id": "C177", "title": "Progress bars show the progress", "statement": "In a loop of n iterations with one call each, a progress bar shows the iterations done, their percentage and a bar in proportion, for one iteration in mod and for the last one, with 100% at the end; each line covers the previous one; the line is ended exactly once, and later calls show nothing.", "quantifier": "all numbers of iterations, values of mod, lengths of bars and timings", "why_tests_cant": "All numbers of iterations and sequences of timings.", "anchors": ["include/vif/utility/time.hpp:100-203 progress_start, progress, progress_tick, print_progress"]}
{"id": "C178", "title": "Catalogues and structures in FITS tables", "statement": "write_columns, update_columns and read_columns of ftable(a, b...) treat each vector under the name of its variable (without what precedes the first dot), or the name it is given; what is written is read back, whatever the vectors contained; a structure is written as its members in order, those of inner structures with the names separated by dots, and is read back; an update changes the columns that it names and no other.", "quantifier": "all lists of vectors and names, and all structures, nested at will; both formats", "why_tests_cant": "All catalogues: names, orders, nested structures.", "anchors": ["include/vif/io/fits/table.hpp:574-583,663-691,709-843,1269-1277,1330-1446,1529-1626 read_columns, write_columns, update_columns"]}
{"id": "C179", "title": "Area of a field from its sources", "statement": "field_area of 20 sources or more is the sum, over the cells of a regular grid (ten sources per cell for a uniform field, a margin of two cells) that have at least two sources, of the area of the cell times the part that is within the typical distance between neighbours of a source, or the whole cell when the cells around it are well filled; it does not depend on the order of the sources; it is at most the area of these cells and at least one part in 400 of it; fewer sources give the area of the convex hull.", "quantifier": "all lists of positions", "why_tests_cant": "All fields: positions, number and order of the sources.", "anchors": ["include/vif/astro/astro.hpp:549-662 field_area_hull, field_area_h2d, field_area"]}
{"id": "C180", "title": "Asking the user for a value", "statement": "prompt returns exactly at the first line of the input that can be read as a value of the type (spaces around it allowed), with this value; lines before it are refused with the error message, lines after it are not read; the message is shown once per line read.", "quantifier": "all messages, types and inputs", "why_tests_cant": "All inputs, of any number of lines; whether the loop ends.", "anchors": ["include/vif/core/print.hpp:36-68 prompt"]}
{"id": "C181", "title": "Values from the environment", "statement": "system_var returns the value of the environment variable when it exists and can be read as a value of the type, and the default otherwise; as a text it is returned unchanged.", "quantifier": "all environments, names and defaults", "why_tests_cant": "All texts in the environment.", "anchors": ["include/vif/utility/os.hpp:9-27 system_var"]}
{"id": "C182", "title": "Editing keywords with fitstool", "statement": "fitstool editkwd sets the first keyword of the given name (in any case) to the value, adding it when there is none, and leaves all other keywords; texts are stored as texts, whole numbers as integers, other numbers as floating point numbers; readkwd then shows the value.", "quantifier": "all headers, names and values", "why_tests_cant": "All headers and all texts of the value.", "anchors": ["tools/fitstool/fitstool.cpp:636-814 write_keyword_value, edit_keyword", "tools/fitstool/fitstool.cpp:889-949 read_keyword"]}
{"id": "C183", "title": "Removing keywords with fitstool, and its questions", "statement": "fitstool rmkwd removes all the keywords with the given names and nothing else; make2d changes only images whose extra axes have one pixel, removes the keywords of these axes and sets NAXIS to 2; a question is answered by the first line that is y, yes, n or no in any case.", "quantifier": "all headers, lists of names, axes and inputs", "why_tests_cant": "All headers, also with repeated keywords; termination of the loops.", "anchors": ["tools/fitstool/fitstool.cpp:830-874 remove_keyword", "tools/fitstool/fitstool.cpp:974-1060 make_2d"]}
{"id": "C184", "title": "Removing columns with fitstool", "statement": "fitstool remove removes exactly the columns with the given names (in upper case); the other columns stay as they are and in order. Without force, one question is asked per unknown name and one before removing: all answered by yes, the columns are removed; at the first no, the file is left as it was.", "quantifier": "all tables, lists of names and inputs", "why_tests_cant": "All tables, names and sequences of answers.", "anchors": ["tools/fitstool/fitstool.cpp:118-186 remove_columns", "tools/fitstool/fitstool.cpp:1230-1267 get_columns"]}
{"id": "C185", "title": "Transposing columns with fitstool", "statement": "fitstool transpose replaces each of the given two-dimensional columns by its transpose, at the same place, and leaves the others; doing it twice gives the first table back.", "quantifier": "all tables and lists of names", "why_tests_cant": "All sizes and numbers of columns.", "anchors": ["tools/fitstool/fitstool.cpp:201-293 transpose_columns"]}
{"id": "C186", "title": "Moving meta columns with fitstool", "statement": "fitstool meta chooses one dimension of the table (the most common one), or takes the one given by the user; the columns that do not have it are moved to a new table, the others stay, and no column is lost or reordered.", "quantifier": "all tables and inputs", "why_tests_cant": "All tables and sequences of answers.", "anchors": ["tools/fitstool/fitstool.cpp:1076-1228 move_meta_columns"]}
{"id": "C187", "title": "Copying sky coordinates between headers with fitstool", "statement": "fitstool cpwcs copies the keywords of its list that the first file has: texts stay the same, numbers are the same numbers; all the other keywords of the second file stay.", "quantifier": "all pairs of headers", "why_tests_cant": "All headers.", "anchors": ["tools/fitstool/fitstool.cpp:469-556 copy_wcs_header"]}
{"id": "C188", "title": "Adding measurements with pixfit-addflx", "statement": "After pixfit-addflx each source has, in each band, the last measurement given for it in the arguments, or else what the file had, or undefined values if the band is new. New bands come at the end in the order in which they are given. The sources stay. A measurement for an unknown source is an error that leaves the file as it was.", "quantifier": "all catalogues and lists of arguments", "why_tests_cant": "All sequences of bands and measurements, with repetitions.", "anchors": ["tools/pixfit/pixfit-addflx.cpp"]}
{"id": "C189", "title": "Adding temperature limits with pixfit-addtdcst", "statement": "After pixfit-addtdcst the limits of each source are those of the last block of arguments that gives a limit for it, and the same as before without one. A limit before the first source is an error that leaves the file as it was.", "quantifier": "all catalogues and lists of arguments", "why_tests_cant": "All sequences of sources and limits, with repetitions.", "anchors": ["tools/pixfit/pixfit-addtdcst.cpp"]}
{"id": "C190", "title": "Map files of pixfit", "statement": "The reader of map files succeeds exactly when each line has at most one '=', all numbers can be read and each band has its required files. It then gives one map per band, in order, with the last value given for each setting within the band, the default value otherwise, and file names relative to the directory of the map file.", "quantifier": "all map files", "why_tests_cant": "All sequences of lines, with repeated, missing and unknown settings.", "anchors": ["tools/pixfit/pixfit-common.hpp: read_maps"]}
{"id": "C191", "title": "The output grid of qregrid covers the input", "statement": "The output image of qregrid has the fewest pixels that can cover the input image and it covers the input image: each point of the input is a point of the output.", "quantifier": "all sizes and ratios", "why_tests_cant": "All sizes of images (odd, even, not square) and real ratios.", "anchors": ["tools/qregrid/qregrid.cpp: vif_main"]}
{"id": "C192", "title": "Masks from region files with qmask", "statement": "qmask reads each circle of a region file in the system of coordinates that the file gives for it, and each pixel of the mask has the part of the pixel inside the circles, in quarters (by corners), at most 1: 1 if the pixel is inside a circle and 0 if it has no corner in any circle.", "quantifier": "all region files and sizes of images", "why_tests_cant": "All texts of region files, positions and radii.", "anchors": ["tools/qmask/qmask.cpp: read_ds9_region_circles, vif_main"]}
{"id": "C193", "title": "Limits of a fitted temperature", "statement": "find_zero gives the first position at which the linear interpolation of a curve meets zero, and NaN exactly if there is none. The limits of the temperature written by pixfit-gfit contain the best temperature and are the nearest points on each side where the probability falls to the level of one standard deviation (best chi2 plus one), or the end of the grid.", "quantifier": "all curves, also with values that are not finite", "why_tests_cant": "All curves with any number of crossings and all positions of the best point.", "anchors": ["tools/pixfit/pixfit-common.hpp: find_zero", "tools/pixfit/pixfit-gfit.cpp: vif_main"]}
{"id": "C194", "title": "Sources that share a flux group are fitted together", "statement": "pixfit-gfit fits each source exactly once; two sources that are linked by shared flux groups, directly or through other sources, are fitted together. In each band the model of a source is compared with its flux group if it has one and with its own measurement otherwise, and no other measurement enters the chi2.", "quantifier": "all catalogues and flux groups", "why_tests_cant": "All graphs of shared flux groups.", "anchors": ["tools/pixfit/pixfit-gfit.cpp: vif_main"]}
{"id": "C195", "title": "Search of the temperatures in pixfit-gfit", "statement": "The result has the lowest chi2 of all points of all grids that are within the limits of each source; each grid stays in the range of temperatures and is around the best temperature so far; each chi2 is written as it was found. The f_PAH loop ends with all f_PAH in range.", "quantifier": "all chi2 functions, numbers of sources, rounds and limits", "why_tests_cant": "All functions of the temperatures and any number of rounds.", "anchors": ["tools/pixfit/pixfit-gfit.cpp: vif_main"]}
{"id": "C196", "title": "Linear fit of pixfit-gfit", "statement": "At given temperatures the masses and f_PAH found by pixfit-gfit have the lowest chi2 of all masses and f_PAH.", "quantifier": "all numbers of sources and measurements, all fluxes and templates", "why_tests_cant": "All matrices and all ways to share measurements.", "anchors": ["tools/pixfit/pixfit-gfit.cpp: dofit"]}
{"id": "C197", "title": "Copying and selecting the members of structures", "statement": "merge_elements copies each member of the source into the member of the destination with the same name, at the same place in the nesting, and leaves the others; it aborts if two members of the same name have different types. pick_elements selects the given elements of every vector of a structure, also in nested structures, and aborts exactly if an index is out of range.", "quantifier": "all structures, of any depth, and all lists of indices", "why_tests_cant": "All structures and nestings.", "anchors": ["include/vif/reflex/reflex_helpers.hpp: merge_elements", "include/vif/reflex/reflex_helpers.hpp: pick_elements"]}
{"id": "C198", "title": "Saved cross-matches give the same result as new ones", "statement": "Adding a catalogue to a catalog_pool gives the same identification of sources whether the cross-match is computed or read from the file of an earlier run; with xmatch set it is always computed and the file is replaced.", "quantifier": "all sequences of earlier runs with any catalogues, selections and pools, and all matchers", "why_tests_cant": "All histories of runs that may have written the file.", "anchors": ["include/vif/astro/catalog_merge.hpp: catalog_pool::add_catalog_"]}
{"id": "C199", "title": "The groups of pixfit-extract are the sets of blended sources", "statement": "With make_groups set, two sources get the same aperture group exactly if a chain of sources links them in which each one overlaps the next one above the threshold; a source without overlapping neighbour gets group 0. The same holds for the groups that are fitted as one source, with chains of pairs above both thresholds, so that these groups lie inside the aperture groups. Every source is part of exactly one fitted source, and the catalogue of groups has exactly one line for each group of each kind, with the sources of this group.", "quantifier": "all numbers of sources and all overlaps, for any thresholds", "why_tests_cant": "All graphs of overlaps.", "anchors": ["tools/pixfit/pixfit-extract.cpp: main (make_groups)"]}
{"id": "C200", "title": "The fluxes of pixfit-extract are the best fit to the whole map", "statement": "The fluxes of the sources (and the background, if it is free) that pixfit-extract writes are the unique minimum of chi2, the sum over all the pixels of the map of the squared, weighted differences between the map and the sum of the PSFs (plus the flux priors), although it only computes sums over the stamps of the PSFs and their overlaps. The covariance matrix is the inverse of the normal matrix of this chi2; without priors the fit fails exactly if the components are linearly dependent on the map. Invalid pixels are replaced with zero and the error 1e5 times the largest one; with trim_image the pixels outside the hull of the sources are treated in this way, unless the hull has less than five pixels.", "quantifier": "all maps, errors, PSF stamps, numbers and positions of sources (on the map or partly outside), priors, with free or fixed background", "why_tests_cant": "All maps and overlaps of stamps, including those cut by the borders.", "anchors": ["tools/pixfit/pixfit-extract.cpp: main (prepare the map, trim_image, build the matrix, invert)"]}
{"id": "C201", "title": "Bad fits of pixfit-extract are put in the groups of their neighbours", "statement": "With group_post_process, after the fit each source with a significantly negative flux or an undefined error, and all the sources the overlap of which with it (in the normal matrix of the fit) is above the threshold, have an aperture group. A source that had a group keeps it. A source without group gets that of the grouped neighbour of the bad source with the highest overlap, or a new one if there is none, in common with the bad source. The catalogue of groups has one line for each group with its number of sources and their mean position.", "quantifier": "all numbers of sources, groups made before, overlaps, thresholds and lists of bad sources", "why_tests_cant": "All graphs of overlaps and orders of the bad sources.", "anchors": ["tools/pixfit/pixfit-extract.cpp: main (group_post_process)"]}
{"id": "C202", "title": "The fluxes of the groups of pixfit-extract are measured on disjoint apertures", "statement": "In the map of the groups, a pixel that is in the aperture of exactly one group (the union of those of its sources) has its number; a pixel that is in those of two groups or more is -1, and one that is in none is 0. The flux of a group is the sum of the pixels of the map (without the sources that have no group) that are in its aperture only, its error is the square root of the sum of the squared errors of these pixels, and the coverage of each of its sources is the sum of its PSF over them. No pixel within the aperture radius of a source is left out by the box on which the group is processed. This holds for groups anywhere on the sky.", "quantifier": "all maps, numbers and positions of sources, groups, shapes of apertures and PSFs", "why_tests_cant": "All overlaps of apertures and positions relative to the borders of the map.", "anchors": ["tools/pixfit/pixfit-extract.cpp: main (group map, aperture fluxes)"]}
{"id": "C203", "title": "The residual and model maps of pixfit-extract are consistent with the fit", "statement": "The model map of pixfit-extract is the sum of the fluxes times the PSFs of the sources, in the units of the map. The residual map is the map minus the images of the sources that have no group (all sources, if there are no groups); its background is that of the map, whether the background is fixed or fitted. Pixels that are not finite remain so in both. Without groups, model plus residual is the map.", "quantifier": "all maps, fluxes, backgrounds, conversion factors, PSFs, positions (on the map, partly or fully outside) and groups", "why_tests_cant": "All maps and lists of sources.", "anchors": ["tools/pixfit/pixfit-extract.cpp: main (residual map, model map)"]}
{"id": "C204", "title": "pixfit-combine keeps the groups of each map", "statement": "In the merged table of pixfit-combine, a source has a group in the column of a map exactly if its coverage in the fit of this map is positive; the entry of the merged list of group fluxes to which it refers is the flux of its own group in this fit. Else the entry is npos.", "quantifier": "all numbers of maps, sources and groups, with or without groups fitted as one source, and with or without the columns of groups", "why_tests_cant": "All sequences of maps with different numbers of groups.", "anchors": ["tools/pixfit/pixfit-combine.cpp: main"]}
{"id": "C205", "title": "The PSF of the pixfit tools is cut around its peak", "statement": "The PSF used by the pixfit tools is a square of odd size around the brightest pixel of the PSF file, its pixels are those of the file, and no pixel of the file outside of the square is brighter than 1/10000 of the brightest one.", "quantifier": "all images, with any NaN pixels, and all positions of the brightest pixel; no beam smearing", "why_tests_cant": "All images.", "anchors": ["tools/pixfit/pixfit-common.hpp: read_psf"]}
{"id": "C206", "title": "pixfit-residual removes the sources of the catalogue", "statement": "pixfit-residual writes, for each map whose band is in the catalogue (and for no other), the map without the images of all the sources that have a flux in this band and the signal to noise ratio that was asked for: the PSF moved to the position of the source, times its flux in the units of the map. Pixels that are not finite remain so.", "quantifier": "all maps, catalogues, positions (on or off the map) and limits of the signal to noise ratio", "why_tests_cant": "All positions of sources around the edges of all maps.", "anchors": ["tools/pixfit/pixfit-residual.cpp: main"]}
{"id": "C207", "title": "qaper measures the flux of a source", "statement": "If the pixels of an image that are not bad are the sum of a source at the centre of the aperture, a constant background, and the neighbours that are fitted, and the source does not reach the pixels of the background, then the flux written by qaper is that of the source, whatever the aperture, the bad pixels, and the pixels that are not finite. Without arguments, qaper does nothing.", "quantifier": "all images, apertures, circles of background and of bad pixels, PSFs, fluxes, and numbers of arguments", "why_tests_cant": "All images and masks; the sums are over all pixels.", "anchors": ["tools/qaper/qaper.cpp: vif_main"]}
{"id": "C208", "title": "qaper removes neighbours with positive fluxes only", "statement": "The fit of the neighbours ends; the neighbours that are subtracted are some of those of the region file, their fluxes are those of a fit with the background and the source, and none is negative. The flux of the source is a number whenever the image is.", "quantifier": "all images, all lists of neighbours, all regions of the fit", "why_tests_cant": "All lists of neighbours: the number of iterations is not known before.", "anchors": ["tools/qaper/qaper.cpp: vif_main"]}
{"id": "C209", "title": "qaper finds the band of an image from its name", "statement": "The band of an image is that of the longest of the known patterns that its file name contains, and is empty if it contains none; an image with the name of a band gets this band.", "quantifier": "all file names, with any directory, and all implementations of std::sort", "why_tests_cant": "All file names; the order of the patterns of the same size depends on the standard library.", "anchors": ["tools/qaper/qaper.cpp: vif_main"]}
{"id": "C210", "title": "fits2ascii writes a table that can be read back", "statement": "The text file written by fits2ascii has one line for each row that is asked for, in this order, and one column for each exported column of the FITS table; reading it with the ASCII reader gives back the values. Columns with another number of rows than the first one, or of too many dimensions, are left out, and row numbers that are too large are an error.", "quantifier": "all tables, all values, all lists of rows, and all included and excluded columns", "why_tests_cant": "All tables and contents.", "anchors": ["tools/fits2ascii/fits2ascii.cpp: vif_main"]}
{"id": "C211", "title": "fits2ascii names the columns", "statement": "A column gets the last name given to it with rename, or its own name; the columns of a matrix that is split get the names made of the parts given to split, and different columns get different names.", "quantifier": "all names, lists of renamed columns and parts of names, which can be lists, columns of the table and texts", "why_tests_cant": "All combinations of names and parts.", "anchors": ["tools/fits2ascii/fits2ascii.cpp: vif_main"]}
{"id": "C212", "title": "findsrc prints the closest sources", "statement": "findsrc prints the sources of the catalogue that are the closest to the position (or to the source) that is asked for, from the closest one, as many as asked for or as there are, with their distances, their indices and their values in the columns to show. If several indices are given, it prints these sources; indices out of range are an error.", "quantifier": "all catalogues, positions and lists of columns and indices", "why_tests_cant": "All positions and catalogues, in particular with ties.", "anchors": ["tools/findsrc/findsrc.cpp: vif_main"]}
{"id": "C213", "title": "subsrc removes the sources from the image", "statement": "subsrc subtracts from the image, for each source of the catalogue that has a finite and positive flux and is selected (included, or not excluded), the PSF at its position times its flux in the units of the image, exactly once; pixels that are not finite remain so and no other is lost. The flux is that of the only band that matches.", "quantifier": "all images, catalogues (FITS tables and text files), and lists of included and excluded sources", "why_tests_cant": "All catalogues and images.", "anchors": ["tools/subsrc/subsrc.cpp: vif_main"]}
{"id": "C214", "title": "The library's own complex numbers behave like the standard ones", "statement": "With USE_VIF_COMPLEX the operators between complex numbers, and between complex and real numbers, norm_sqr and norm have the values that they have with std::complex.", "quantifier": "all complex and real numbers", "why_tests_cant": "All numbers.", "anchors": ["include/vif/math/complex.hpp: vif_complex_t"]}
{"id": "C215", "title": "qstack2 stacks the sources that are asked for", "statement": "qstack2 stacks the sources between the two bounds given in ids (both included), or all the sources; the stack is the mean of the cutouts of these sources, weighted if weights or errors are given, or their median; weights with the median are an error; each bootstrap is the same stack of a random draw among these sources. Bounds that are not valid are an error.", "quantifier": "all cubes, bounds, options, weights and draws", "why_tests_cant": "All cubes and draws.", "anchors": ["tools/qstack2/qstack2.cpp: vif_main"]}
{"id": "C216", "title": "qstack2 centres the cutouts on the sources", "statement": "With the subpixel option, the value of the cutout at i pixels from its centre is that of the image at i pixels from the position of the source.", "quantifier": "all images and positions", "why_tests_cant": "All positions in a pixel.", "anchors": ["tools/qstack2/qstack2.cpp: vif_main"]}
{"id": "C217", "title": "getgal writes the cutouts of the sources", "statement": "For each image that is used (all of them, or those of the bands asked for) and each source, getgal writes one file with the cutout of the image around the source, with the half size that was asked for in this image, and a reference pixel that is the position of the source in the cutout; sources out of the image get an empty cutout.", "quantifier": "all lists of images, sources and sizes", "why_tests_cant": "All lists of images and sizes.", "anchors": ["tools/getgal/getgal.cpp: vif_main"]}
{"id": "C218", "title": "The files of getgal have different names", "statement": "Two files written by one run of getgal, for different sources or for different images, have different names.", "quantifier": "all names of sources and images", "why_tests_cant": "All names.", "anchors": ["tools/getgal/getgal.cpp: vif_main"]}
{"id": "C219", "title": "fluxcube measures the flux of the stacked source", "statement": "If the stack is a source of flux f with the shape of the PSF on a constant background b, fluxcube returns f and b, whichever pixels are fitted (those where the PSF is more than a fraction of its maximum, or all of them with large_bg).", "quantifier": "all PSFs, fractions, images (NaN included), fluxes and backgrounds", "why_tests_cant": "All images and PSFs.", "anchors": ["tools/fluxcube/fluxcube.cpp: extract"]}
{"id": "C220", "title": "fluxcube bootstraps and batch lines", "statement": "The flux and the image that are written are those of the stack of the whole cube and the bootstrapped fluxes those of the draws; each line of a batch file is processed with the options given last.", "quantifier": "all cubes, draws and batch files", "why_tests_cant": "All draws and batch files.", "anchors": ["tools/fluxcube/fluxcube.cpp: vif_main, get_flux"]}
{"id": "C221", "title": "replace_blocks applies the converter to the parts of each block", "statement": "replace_blocks(s, begin, sep, end, convert) replaces each block of the text delimited by begin and end by the result of convert applied to the list of the parts of this block (separated by sep), leaves the rest of the text as it is, and ends.", "quantifier": "all texts, delimiters, separators and converters", "why_tests_cant": "All texts.", "anchors": ["include/vif/utility/bits/string-find-replace.hpp: replace_blocks"]}
{"id": "C222", "title": "psffit measures the flux of a point source", "statement": "If the image is, over the pixels that are fitted, a source of flux f with the shape of the PSF on a constant background (zero with nobg), psffit returns f (times the conversion) and the background whatever the errors; the residual is the image minus the source, in the file asked for or in a file named after the image; with missing arguments the help is shown.", "quantifier": "all images, PSFs and error maps (NaN included), options and file names", "why_tests_cant": "All images and options.", "anchors": ["tools/psffit/psffit.cpp: vif_main"]}
{"id": "C223", "title": "qconvol convolves with the kernel, or with a Gaussian of the given width", "statement": "The image written is the convolution of the image (zero out of its borders) with the whole kernel of the file, centred on its brightest pixel; without kernel, with a Gaussian whose full width at half maximum is twice the radius.", "quantifier": "all images, kernels and radii", "why_tests_cant": "All images and kernels.", "anchors": ["tools/qconvol/qconvol.cpp: vif_main"]}
{"id": "C224", "title": "the messages of refgen are broken into lines", "statement": "A message of the compiler is displayed with all its words in order, in lines that are not longer than the terminal (the first one after the location, the next ones after the indentation) except when a word alone is, and the display ends.", "quantifier": "all messages, headers, indentations and terminal widths", "why_tests_cant": "All messages.", "anchors": ["tools/refgen/refgen.cpp: wrap, string_range"]}
{"id": "C225", "title": "refgen finds the structures of a file and their members", "statement": "The structures found are those defined in the file, in order, and the members of each one are the fields declared in it but not in a structure inside it, in order.", "quantifier": "all trees of declarations", "why_tests_cant": "All trees of declarations.", "anchors": ["tools/refgen/refgen.cpp: visitor, is_in_parent"]}
{"id": "C226", "title": "refgen copies the code and adds the reflection data to each structure", "statement": "If the code has no error, each line of it is written unchanged except for the reflection data of each structure, which are added once, just before its closing brace; if it has errors nothing is written.", "quantifier": "all codes, structures and diagnostics", "why_tests_cant": "All codes.", "anchors": ["tools/refgen/refgen.cpp: main, get_location"]}
{"id": "C227", "title": "rotation of an image around its center", "statement": "rotate(img, angle) is the image turned around its central pixel (dims/2) by this angle in degrees, from the axis of the columns towards the one of the rows: each pixel has the value of the image, interpolated, at the position found by turning back; positions outside of the image have the default value. Turning by zero or 360 degrees changes nothing, quarters of a turn move the pixels unchanged.", "quantifier": "all images, angles and default values", "why_tests_cant": "All angles and sizes.", "anchors": ["include/vif/astro/image.hpp: rotate, rotate_bicubic", "include/vif/math/interpolate.hpp: bilinear_strict, bicubic_strict"]}
{"id": "C228", "title": "enlarging an image around its center", "statement": "scale(img, f) is the image enlarged by the factor f around its central pixel (dims/2), which stays in place; positions outside of the image have the default value; a factor of one changes nothing.", "quantifier": "all images, factors and default values", "why_tests_cant": "All factors and sizes.", "anchors": ["include/vif/astro/image.hpp: scale, scale_bicubic"]}
{"id": "C229", "title": "sources around given positions", "statement": "pixfit-findprior writes, for each circle of the region file, in order, the sources of the catalogue that pass its filter and are in the circle, the nearest first, and nothing else.", "quantifier": "all catalogues, filters, circles, radii and numbers nsrc", "why_tests_cant": "All catalogues and distances, ties included.", "anchors": ["tools/pixfit/pixfit-findprior.cpp: vif_main", "include/vif/astro/qxmatch.hpp: qxmatch"]}
{"id": "C230", "title": "a list of sources written as regions is read back", "statement": "pixfit-reg2fits applied to the region file written by pixfit-findprior gives a table with the same sources in the same order: positions, identifiers, redshifts and masses.", "quantifier": "all lists of sources", "why_tests_cant": "All lists and texts.", "anchors": ["tools/pixfit/pixfit-reg2fits.cpp: vif_main", "tools/pixfit/pixfit-findprior.cpp: vif_main", "tools/pixfit/pixfit-common.hpp: read_ds9_region_circles"]}
{"id": "C231", "title": "help texts fit the terminal and keep all words", "statement": "The headers, paragraphs, bullets and items of a help text are written with all the words of the given text, in order, on lines no wider than 80 characters (when the words allow it), each line after the first indented under the first.", "quantifier": "all texts, names and indentations", "why_tests_cant": "All texts and widths.", "anchors": ["include/vif/utility/bits/string-format.hpp: terminal_format::header, paragraph, bullet, item"]}
{"id": "C232", "title": "conversion of a table by rows to a table by columns", "statement": "fitstool r2c writes a table of one row with the same columns in the same order, each with all the values of the input column, row after row; its dimensions are those of the values of a row and the number of rows. No data is lost, and the input file is not modified.", "quantifier": "all tables, columns and values", "why_tests_cant": "All numbers of rows and columns, all types of values.", "anchors": ["tools/fitstool/fitstool.cpp: rows_to_columns"]}
{"id": "C233", "title": "cutouts around a position", "statement": "pixfit-cutout writes, for the image and the error of each map, in order, the pixels of the map within the radius of the position, with NaN out of the map, and a header in which each pixel is at the same distance from the position as in the map.", "quantifier": "all maps, positions and radii", "why_tests_cant": "All positions relative to the pixels and the edges.", "anchors": ["tools/pixfit/pixfit-cutout.cpp: vif_main", "include/vif/astro/qstack.hpp: qstack"]}
{"id": "C234", "title": "random positions in the field of a catalogue", "statement": "randsrc writes the requested number of positions, uniform in the convex hull of the positions of the catalogue (the first uniform candidates of the box around the catalogue that are in the hull), and fails only if max_iter candidates in a row are out of it.", "quantifier": "all catalogues, numbers of sources and sequences of random numbers", "why_tests_cant": "All random sequences and catalogues.", "anchors": ["tools/randsrc/randsrc.cpp: vif_main", "include/vif/astro/astro.hpp: randpos_uniform_box", "include/vif/math/convex_hull.hpp: build_convex_hull"]}
{"id": "C235", "title": "positions given on the command line", "statement": "radec2pix prints the pixel coordinates of each position given, decimal or sexagesimal, in order, and sex2deg prints the value of a sexagesimal position; texts that are not positions are refused with an error.", "quantifier": "all lists of texts", "why_tests_cant": "All texts.", "anchors": ["tools/radec2pix/radec2pix.cpp: vif_main", "tools/sex2deg/sex2deg.cpp: vif_main"]}
{"id": "C236", "title": "depth of a catalogue", "statement": "photinfo prints one line for each band that has a detection, in order, with the numbers of sources with a positive flux, over three and over five times the error, and three times the median error of the sources over three times the error; it works for all catalogues.", "quantifier": "all catalogues", "why_tests_cant": "All numbers of sources and bands, all fluxes.", "anchors": ["tools/photinfo/photinfo.cpp: vif_main"]}
{"id": "C237", "title": "merging structures of columns", "statement": "Merging a structure of columns (or a scalar) of a catalogue into the one of the pool fills the columns with the same names, at the indices of the sources, with the default elsewhere, and leaves the other columns; a column of another type or one that was filled before is refused.", "quantifier": "all pools that can be built, all structures", "why_tests_cant": "All sequences of catalogues, all sets of columns in any order.", "anchors": ["include/vif/astro/catalog_merge.hpp: catalog_t::merge, do_catalog_merge, do_catalog_merge_run"]}
{"id": "C238", "title": "comments of a catalogue", "statement": "After any sequence of add_comment, build_comments gives the general comments, then a tree from which each variable can be read back, in alphabetical order, with the first comment that was given to it; each heading is written once.", "quantifier": "all sequences of comments", "why_tests_cant": "All sets of names and all orders of the calls.", "anchors": ["include/vif/astro/catalog_merge.hpp: add_comment, build_comments"]}
{"id": "C239", "title": "maximal signal to noise ratios of pixfit-gfit", "statement": "Before the fits, the errors of the measurements (of the groups) with a signal to noise ratio above snr_max (snr_max_group) are enlarged to reach it and no other error changes; a source leaves exactly the groups to which it does not contribute, and the fitted sources are exactly those with a valid measurement at a long enough wavelength.", "quantifier": "all catalogues, limits and groups", "why_tests_cant": "All numbers of sources, bands and groups, several sources in the same group.", "anchors": ["tools/pixfit/pixfit-gfit.cpp: vif_main"]}
{"id": "C240", "title": "approximate errors of pixfit-extract", "statement": "With cell_approx, if the whole fit has a solution, then every source gets a positive error that is never larger than its error in the whole fit; both are equal if the sources that are left out overlap none of the sources that are kept, nor a free background.", "quantifier": "all maps, sources, priors and backgrounds for which the whole fit has a solution", "why_tests_cant": "The approximation inverts one part of the matrix per source: tests would compare a few maps, not all patterns of overlap.", "anchors": ["tools/pixfit/pixfit-extract.cpp: vif_main (cell_approx)"]}
{"id": "C241", "title": "conversion of fluxes to luminosities with a spectrum", "statement": "sed_convert gives the factor between the flux of a spectrum in one filter at a redshift and its luminosity in another filter at rest, and the factor is the same for all multiples of the spectrum; sed2flux on several spectra gives for each row the flux of this row.", "quantifier": "all filters, spectra, redshifts and distances, all numbers of rows", "why_tests_cant": "All spectra and scalings; the rows of the two arrays are read without a check.", "anchors": ["include/vif/astro/astro.hpp: sed_convert, sed2flux"]}
{"id": "C242", "title": "the script of pixfit-prep", "statement": "The script that pixfit-prep writes calls pixfit-extract once for each map of the list, in order, with options that it has and that carry all the settings of the map, and then pixfit-combine on the results, which accepts these arguments.", "quantifier": "all lists of maps and all names", "why_tests_cant": "The script depends on names with blanks, on how a shell cuts it in words and on the options of two other programs.", "anchors": ["tools/pixfit/pixfit-prep.cpp: vif_main", "tools/pixfit/pixfit-combine.cpp: vif_main"]}
{"id": "C243", "title": "errors when reading a table cannot be ignored", "statement": "An error that happens when columns are read from a FITS table is either looked at by the caller or stops the program; the program is not stopped for an error that the caller looked at.", "quantifier": "all sequences of creating, looking at, moving, assigning and destroying the values that reading returns", "why_tests_cant": "The value can be moved, assigned and destroyed in any order, and tests only do it in one.", "anchors": ["include/vif/io/fits/table.hpp: read_sentry", "include/vif/io/fits/table.hpp: input_table::read_columns"]}
{"id": "C244", "title": "groups of columns in ASCII tables", "statement": "ascii::columns(m, a, b, ...) writes the columns a(_,0), b(_,0), ..., a(_,1), b(_,1), ... exactly as if they were given one by one, and reading with the same group gives the vectors back; other numbers of columns are refused.", "quantifier": "all numbers of groups, vectors, lines and formats of output", "why_tests_cant": "The order of the cells depends on the number of vectors and of columns, and a wrong number only shows in the values.", "anchors": ["include/vif/io/ascii.hpp: ascii::columns", "include/vif/io/ascii.hpp: write_table", "include/vif/io/ascii.hpp: read_table"]}
{"id": "C245", "title": "the list of merged catalogues loses nothing", "statement": "Two pools of catalogues for which build_catalog_list gives the same text have the same catalogues in the same order, with the same names, sources, files and comments (up to blanks where a long comment is cut in lines).", "quantifier": "all pools of catalogues and all widths", "why_tests_cant": "The layout changes with the number of sources and files, so tests cannot try all the texts that could be confused.", "anchors": ["include/vif/astro/catalog_merge.hpp: catalog_pool::build_catalog_list"]}
{"id": "C246", "title": "random numbers follow the given distribution", "statement": "random_pdf(seed, px, py) gives numbers whose probability density is the broken line through the points (px, py), normalised, and random_pdf_discrete(seed, w) gives the index i with probability w[i]/total(w); inputs for which there is no such distribution are refused.", "quantifier": "all positions, densities and weights, and all uniform random numbers", "why_tests_cant": "A test can only compare histograms of some draws, within their noise, for some distributions.", "anchors": ["include/vif/math/random.hpp: random_pdf", "include/vif/math/random.hpp: random_pdf_discrete"]}
{"id": "C247", "title": "refgen marks the place of a message in the code", "statement": "Below a message, refgen prints the line of code, cut to the width of the terminal, and a line of the same length with a caret under the place of the message and tildes under exactly the characters that its ranges cover; it never writes out of bounds.", "quantifier": "all lines, widths of the terminal, places and lists of ranges", "why_tests_cant": "The ranges come from the compiler, for any code with errors in it.", "anchors": ["tools/refgen/refgen.cpp: format_range"]}
{"id": "C248", "title": "fitstool extract copies one extension to a new file", "statement": "fitstool extract writes to the output file exactly the extension asked for, makes the directory of the output file, and changes no other file; if the extension cannot be read or written it returns failure, and without the extension an output file that exists is left as it is.", "quantifier": "all files, names, numbers of extensions, and outcomes of the calls of the FITS library", "why_tests_cant": "A disk that is full and wrong numbers of extensions cannot be tried in all combinations.", "anchors": ["tools/fitstool/fitstool.cpp: extract_extension", "include/vif/io/filesystem.hpp: get_directory, mkdir"]}
{"id": "C249", "title": "qxmatch2 matches the columns that its arguments name", "statement": "qxmatch2 reads from the first and the second catalogue the columns that radec1 and radec2 name, with the prefixes that pos gives (none, one for both catalogues, or one for each), saves the match of the first with the second, or of a single catalogue with itself, and saves nothing else; with an empty catalogue it reports an error and saves nothing.", "quantifier": "all arguments, tables and results of the match", "why_tests_cant": "The combinations of names, prefixes and tables are unlimited.", "anchors": ["tools/qxmatch2/qxmatch2.cpp: vif_main"]}
{"id": "C250", "title": "imgtool writes the image that its operation makes", "statement": "imgtool multiply, convolve and rotate write to the output file the input image times the value, its convolution with the kernel (with normalize, scaled to unit sum), and the image rotated by the angle; with missing arguments, an unknown operation or a value that is not a number nothing is written and the program fails; operation help prints the help of the operation.", "quantifier": "all arguments and images", "why_tests_cant": "The arguments and images are unlimited.", "anchors": ["tools/imgtool/imgtool.cpp: vif_main, convolve, multiply, rotate"]}
{"id": "C251", "title": "The list of the columns of a table is complete and right", "statement": "read_columns_info gives one entry for each column of the table, in order, with its number, its name and the type of its elements; columns of bytes are booleans if their first row has only zeros and ones with at least one zero.", "quantifier": "all tables: numbers of columns, types and rows", "why_tests_cant": "Tables written by other programs have any types and numbers of rows.", "anchors": ["include/vif/io/fits/table.hpp: input_table::read_columns_info, read_column_info"]}
{"id": "C252", "title": "Types have readable and distinct names", "statement": "pretty_type gives each type built from numbers, strings, vectors, references, pointers and const a readable name that does not depend on the compiler, and different types have different names.", "quantifier": "all types, of any depth", "why_tests_cant": "The types are an infinite family; the choice among the overloads depends on the order in which they are declared.", "anchors": ["include/vif/core/string_conversion.hpp: pretty_type, pretty_type_t"]}
{"id": "C253", "title": "hash depends on the values of its arguments only", "statement": "Two calls of hash with arguments of the same types and values return the same text, whether the arguments are variables, constants or temporaries.", "quantifier": "all lists of arguments, and all ways to pass them", "why_tests_cant": "The ways to pass the arguments multiply with their number, and the result depends on the choice of overloads for the names of types.", "anchors": ["include/vif/utility/bits/string-hash.hpp: hash", "include/vif/core/string_conversion.hpp: pretty_type"]}
{"id": "C254", "title": "A format applies to its object only", "statement": "Writing format::scientific(x), format::fixed(x) or format::precision(x, p) to a stream, nested in any way, writes x as the stream would with the notation and the precision asked for, the innermost ones if there are several. What is written next is written as if x had no format.", "quantifier": "all nestings of formats, all values and vectors, all settings of the stream", "why_tests_cant": "The settings of a stream and the nestings of formats combine without bound, and the effect on what follows shows only for settings that tests do not use.", "anchors": ["include/vif/core/string_conversion.hpp: format_t", "include/vif/core/string_conversion.hpp: operator <<", "include/vif/core/bits/operators.hpp: operator <<"]}
{"id": "C255", "title": "The backtrace shortens names of functions without changing what they name", "statement": "The pass of dbg_pretty_demangled on template arguments changes the name of a function only by removing spaces and the void parameter of enable_if, so that two functions shown under the same name differ by no more than that.", "quantifier": "all names of functions", "why_tests_cant": "The names nest templates without bound, and the wrong names only show in the backtrace of a failed check inside particular functions.", "anchors": ["include/vif/core/error.hpp: dbg_pretty_demangled"]}
