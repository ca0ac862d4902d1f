# Formal model of cschreib/vif — design

## 1. Conventions

* The source at /repo is read as text; it is never built or run. Every Lean
  definition that models code cites file and lines below `/repo/include/vif`.
* Failure outcomes are explicit (`Verif.Basic`): `Res α` is `ok a`, `abort`
  (a `vif_check` fired, the documented error path), `ub` (the C++ text would
  read or write out of bounds, divide by zero, ...) or `diverge` (a loop that
  provably never exits). A theorem that an operation "is safe" says that the
  model does not return `ub`/`diverge`; nothing is totalised away silently.
* Vectors are modelled as `List`/row-major data plus a list of dimensions.
  `std::vector`, `std::sort`/`stable_sort`, `std::rotate`, `std::partition`,
  `nth_element` and iostream primitives are modelled by their standard contract
  (relationally when the standard leaves freedom, e.g. `partition`).
* Unsigned integers are `Nat` where the property does not concern wrap-around,
  and `BitVec`/explicit `mod 2^64` where it does (range arithmetic, parallel_for,
  narrow index types, SHA-1).
* Floating point is modelled by an arbitrary linearly ordered field (or `Option`
  of one, `none` = NaN). Rounding is outside the model; properties about
  numerics are exact-arithmetic statements and say so in their note.
* Threads are modelled as labelled transition systems whose steps are the atomic
  accesses of the source; theorems quantify over all reachable states, hence over
  all schedules. Sequential consistency is assumed (the code uses default
  `seq_cst` atomics).
* Each area has a model file `Verif/<Area>/Model.lean` (or `<Area>.lean`), helper
  lemmas, and a `Verif/<Area>/Props.lean` with the property theorems and, beside
  each, an `example` meeting the hypotheses.
* If the code violates the stated property the file contains a refutation (a
  concrete witness) and a `_partial` theorem with the exact domain on which the
  property holds; section 4 lists these findings.

## 2. Trusted base

Lean 4.33.0 kernel; axioms `propext`, `Classical.choice`, `Quot.sound` at most.
No user axioms, `sorry`, `native_decide` or `bv_decide`. The fidelity of the
transcription from C++ to the model is by reading only.

## 3. Plan per property

| id | model | proof |
|----|-------|-------|
| C01 | `Vec` = data + dims, each mutator as a function to `Res Vec` | invariant by induction over op lists |
| C02 | move ctor / move assignment on a pair of `Vec`s | theorem for ctor; refutation for assignment; partial |
| C03 | `pitch`, `flat_id`, `mult_ids` over `List Nat` dims | round trips by induction on dims |
| C04 | `to_idx_` over `Int` and over `BitVec w` | arithmetic; loop invariant; divergence for narrow types |
| C05 | range objects and bound checks with 64-bit arithmetic | case analysis, omega |
| C06 | recursive multi-dim access | induction on dims against substitution spec |
| C07 | store (address → value) and views as address lists | sequential loop vs simultaneous assignment; refutations |
| C08 | elementwise ops | list lemmas |
| C09 | append/prepend along N | index arithmetic on (outer, N, inner) decomposition |
| C10 | inplace_remove loop with sorted ids | induction |
| C11–C13 | reverse, rotate, transpose, replicate loops | list/indexing lemmas |
| C14, C15 | comparator with NaN, stable sort contract, unique loops | sortedness, permutations |
| C16–C21 | find functions | list induction, sortedness |
| C22 | BFS loop | BFS invariant (layers = distance) |
| C23 | odometer | iterate = mixed radix successor |
| C24 | run_dim index arithmetic | mixed radix |
| C25, C26 | comparator, min/max loops, selection contract | order lemmas |
| C27, C69 | in_bin, successive partition | counting; any permutation allowed by `std::partition` |
| C28–C31 | integrate, cumul, interpolate, spline over a field | algebra, telescoping |
| C95, C96 | bilinear, rebin, bicubic on images (`Math/Bilinear`) | sum of ramps; gluing of continuous pieces |
| C32 | rgen, rgen_step, bins | field arithmetic |
| C33 | monotone chain over an ordered field | stack invariant |
| C34–C39 | string functions over `List Char` (generic) | list induction; termination analysis |
| C40, C41 | SHA-1 code on BitVec vs independent FIPS spec | refinement of block loop and padding |
| C42 | regexec as parameter | induction on remaining suffix |
| C43 | time_str digits | decode∘encode |
| C44–C46, C71 | path, table line, argv, macro names | list induction |
| C47 | heap of nodes + program counters | inductive invariant over all interleavings |
| C48–C50 | LTS of worker, pool, parallel_for | inductive invariants |
| C51–C55 | LU/Cholesky/linfit loops over a field | loop invariants as matrix identities |
| C56–C58 | insertion of nth neighbour, thread merge, buckets | sortedness + min characterisation |
| C59, C70 | random functions with the stream as a parameter | arithmetic, permutations |
| C60–C68 | image functions | index arithmetic, reachability |
| C72 | nested lists as trees | induction |
| C97–C101 | sky coordinates over the reals (`Astro/Coord`) | unit vectors, angles in R^3 |
| C102 | unit conversions over the reals (`Astro/Units`) | algebra of logarithms |
| C105 | sexagesimal texts (`Astro/Sex`), number texts of doubles as parameters | split/collapse, decimal round trip |
| C106–C108 | statistics (`Math/Stats`) | algebra of sums; order statistics; loop invariant over sorted indices |
| C109 | Romberg loop with its flat buffer (`Math/Romberg`) | refinement of the table; telescoping |
| C110 | Gaussian integrals (`Math/Gauss`), `erf` by its definition | substitution |
| C111 | template fit (`Astro/Tfit`), fluxes in an ordered field | completing the square, argmin over the list |
| C112 | loop over the combinations (`Astro/Tfit`), LAPACK by contract, non-linear solver a parameter | invariant of the loop with the odometer of C23, normal equations of C58 |
| C113 | `limweight` over the reals (`Astro/Limweight`), `erf` by its definition | bounds of the Gaussian tail by derivatives |
| C114 | catalogue pool (`Astro/Catalog`), matcher a parameter | invariant over sequences of calls, specification of the loop by induction |
| C115 | region files (`Astro/Ds9`), conversions of numbers by contract | reader inverts writer by induction on the list, totality |
| C116 | circular masks and masks of regions (`Astro/Ds9Mask`) | loop invariant; a box is the convex hull of its corners, with C33 |
| C117 | Gaussian and radial profiles (`Astro/Profile`) | integrals over the real line, concrete refutations |
| C118 | cutouts of sources (`Astro/Qstack`), cfitsio by contract | invariant over the prefix of the pairs image, source |
| C119 | products of matrices and vectors, transposition, matrices of plane transforms (`Math/Matrix`) | invariant over the three loops; laws from the closed form |
| C120 | `getkey`, `setkey` (`Io/Header`) | refinement to a lookup in the list of cards |
| C121 | `parse_header`, `serialize_header` (`Io/Header`) | round trip by induction over the cards |
| C122 | `make_wcs_header`, `filter_wcs` (`Astro/WcsHeader`) | refinement to a lookup in the list of cards |
| C123 | `wcs`, `ad2xy`, `xy2ad`, `x2w`, `w2x`, `build_axis` (`Astro/Wcs`) | refinement to a conversion by position; round trips |
| C124 | constructors, moves, `update` of `wcs` (`Astro/WcsLife`) | invariant by induction over programs |
| C125 | columns of FITS tables, both formats (`Io/FitsTable`, `FitsTableProps`, `FitsTableRefuted`) | round trip; induction over the columns; independence of names |
| C126 | type traits and dimensions of columns (`Io/FitsConvProps`) | decision logic; sets of values of the types |
| C127 | `read_elements`, `update_elements` (`Io/FitsElemProps`) | refinement to positions in an array |
| C128 | `segment_distance` (`Astro/SegDist`, `SegDistLemmas`, `SegDistProps`) | loop invariants; potential for termination; witnesses |
| C129 | `fft`, `ifft`, `convolve2d` (`Astro/Fft`, `FftLemmas`, `ConvLemmas`, `ConvProps`) | convolution theorem; sums over residues |
| C130 | `convolver2d` (`Astro/ConvolverProps`) | invariant over sequences of calls; witnesses |
| C131 | `make_transition_kernel` (`Astro/TransitionProps`) | inversion of the transform; witnesses |
| C132 | `write`, `write_empty`, `update`, `read` of images (`Io/FitsImage`, `FitsImageProps`) | effect on the list of HDUs; round trip |
| C133 | `reach_hdu`, `remove_hdu` (`Io/FitsImageProps`) | lists; induction on sequences of images |
| C134 | `make_indices_`, `read_subset`, `read_pixel` (`Io/FitsSubsetProps`) | induction on the dimensions; positions in both orders |
| C135 | errors of `file_base` (`Io/FitsStatus`, `FitsStatusProps`) | refinement of a specification without memory; induction on sequences |
| C136 | `segment_deblend`, growth of segments and islands (`Astro/Deblend`, `DeblendLook`, `DeblendGrow`, `DeblendIsl`, `DeblendProps`) | invariants of the loops over pixels, levels and segments; the rule that gives each pixel its label |
| C137 | `segment_deblend`, measurements (`Astro/DeblendIsl`, `DeblendProps`) | sums over lists of pixels up to permutation |
| C138 | `segment_deblend`, small segments (`Astro/DeblendSmall`, `DeblendSmallProps`) | relation with the result without minimum area; invariant of the loop over segments |
| C139 | `regrid_interpolate` (`Astro/RegridInterp`, `RegridInterpProps`) | invariant of the loops over pixels; reduction to the strict interpolations of C95 |
| C140 | `regrid_drizzle` and polygon clipping (`Astro/Regrid`, `RegridClip`, `RegridRect`, `RegridPix`, `RegridSum`, `RegridCover`, `RegridProps`) | clipping of rectangles up to rotation of the list of corners; the result as sums over source pixels; sums of overlaps of intervals |
| C141 | `regrid_drizzle` for any map (`Astro/RegridSum`, `RegridMapProps`) | the result as weighted sums over source pixels |
| C142 | `cutout_extractor::get_cutout` (`Astro/Cutout`, `CutoutProps`) | invariant of the loop over images, clipping in one dimension |
| C143 | `to_string`, `from_string` (`Str/Conv`, `ConvProps`) | acceptance as a grammar of texts; round trips; equality with the conversions used in C105 and instance of C85 |
| C144 | `mpfit` and its options (`Math/Mpfit`, `MpfitLemmas`, `MpfitInv`, `MpfitProps`, `MpfitTerm`) | invariant of the two loops for any numerical part; measure (the bound on the steps) for the end; evaluation of the whole model for counterexamples |
| C145 | `mpfit_enorm`, `mpfit_qrfac`, product with the transpose of `Q`, test on `gtol` (`Math/MpfitAlg`, `MpfitQR`, `MpfitQRProps`) | invariant of Householder reflections with pivoting: an isometry that maps the derivatives to the triangle |
| C146 | `mpfit_qrsolv`, `mpfit_lmpar` (`Math/MpfitSolve`, `MpfitSolveProps`) | invariant of Givens rotations (Gram matrix), triangular systems, normal equations and minimum |
| C147 | `mpfit_covar` (`Math/MpfitCovar`) | inverse of the triangle by columns, product, permutation; left and right inverses |
| C148 | `randpos_rejection_sampling`, `randpos_uniform_box`, `randpos_uniform_circle` (`Astro/RandPos`, `RandPosLemmas`, `RandPosProps`) | refinement of the loop by the filtered list of positions drawn |
| C149 | `randpos_power_base`, `randpos_power_circle` (same files) | invariant of the levels (sizes, criterion, distance) |
| C150 | `angcorrel` (`Astro/Angcorrel`, `AngcorrelProps`) | refinement of the loops by counts of pairs; algebra of the estimator |
| C151 | `read_filter_db`, `get_filter`, `get_filters`, `read_filter_map`, `get_filter_id` (`Astro/FilterDb`, `FilterDbProps`) | refinement of the map by the first definition; minimum for suggestions; area of the broken line |
| C152 | `pick_sources` (`Astro/Pick`, `PickProps`) | refinement of the loop by the list of sources kept |
| C153 | `get_band` (same files) | decision logic |
| C154 | `cosmo_t`, `get_cosmo`, `lumdist`, `lookback_time`, `propsize`, `vuniverse`, `VECTORIZE_INTERPOL` (`Astro/Cosmo`, `CosmoProps`) | monotonicity of integrals; refinement of the interpolation by chords on a geometric grid |
| C155 | `rgen_log` (same files) | algebraic law |
| C156 | `psffit` (`Astro/PsfFit`, `PsfFitProps`) | refinement of regions (C64) and fit (C55) by a minimum over pixels |
| C157 | `srcsub` (same files) | refinement by the image of differences |
| C158 | `translate` (`Astro/MakePsf`, `MakePsfProps`) | refinement by the interpolation of C95 |
| C159 | `make_psf` (same files) | decision logic on the parameters; refinement of the trimming and of the two regions (C64) |
| C160, C161 | `read_args_`, `write_args_` for lists of variables, `program_arguments` (`Io/ArgvList`, `ArgvListProps`) | induction on the variables over C46; round trip |
| C162 | `make_cmd`, `save_args` (same files) | round trip through the words of a shell |
| C163 | `write_header`, `read_header` (`Io/HeaderFile`, `HeaderFileProps`) | refinement to a list of cards; effect on `getkey` (over C120) |
| C164 | `read_keyword`, `write_keyword`, `add_keyword`, `has_keyword` for strings (same files) | round trip |
| C165 | `read_sectfits`, `read_header_sectfits` (same files) | refinement over C44 |
| C166 | `solve_symmetric`, `eigen_symmetric`, `decompose_svd` (`Math/LapackSym`, `LapackSymProps`) | contracts of LAPACK; storage by rows and by columns |
| C167 | `qdist` (`Astro/Stack`, `StackProps`) | loop over pairs; over C97 |
| C168 | `qstack_mean`, `qstack_median`, `qstack_mean_bootstrap` (same files) | refinement over C24, C26 and C106 |
| C169 | `VIF_VECTORIZE*`, `vectorize_lambda_first`, `vectorize_lambda` (`Core/Vectorize`, `VectorizeProps`) | induction on the elements; in place for temporaries; any order of the checks |
| C170 | element-wise `min`, `max` (`Math/MinMax`, `MinMaxProps`) | refinement to `min`, `max` of an ordered field |
| C171 | `minimize_bfgs` (`Math/Optimize`, `OptimizeProps`) | induction on the fuel for any state machine; trace of the memory |
| C172 | `translate_bicubic` (`Astro/TranslateCubic`, `TranslateCubicProps`) | over C31 (splines) row by row, then column by column |
| C173 | `field_area_hull` (`Astro/FieldArea`, `FieldAreaProps`) | Heron's formula for the triangle inequality on the sphere; over C97 |
| C174 | headers given to WCSlib, `cure_header` (`Astro/Cure`, `CureProps`) | POSIX regular expressions as Mathlib's `RegularExpression`; induction on the keywords; over C121 |
| C175 | checks of the unit tests (`Core/UnitTest`, `UnitTestProps`) | decision logic over C08; induction on the checks |
| C176 | `convolve` (`Math/Convolve`, `ConvolveProps`) | over C30; bilinearity, neutral element |
| C177 | progress bars (`Io/Progress`, `ProgressProps`) | induction on the iterations |
| C178 | catalogues and structures in FITS tables (`Io/FitsCols`, `FitsColsProps`) | refinement to lists of columns, induction; over C71 and C125 |
| C179 | `field_area`, `field_area_h2d` (`Astro/FieldAreaH2d`, `FieldAreaH2dProps`, `FieldAreaH2dField`) | invariants of the loops; over C25, C27, C66, C97, C106, C173 |
| C180, C181 | `prompt`, `system_var` (`Tools/Prompt`, `PromptProps`) | induction on the lines of the input; over C143 |
| C182, C183 | the program `fitstool`: keywords (`Tools/Fitstool`, `FitstoolProps`, `FitstoolRemove`) | read after write; over C36, C143, C163 |
| C184-C186 | `fitstool`: columns (`Tools/FitsColumns`, `FitsColumnsProps`, `FitsMeta`) | induction on the questions and on the columns; over C12, C14, C15, C25 |
| C187 | `fitstool cpwcs` (`Tools/CopyWcs`) | invariant of the fold on the keywords |
| C188, C189 | `pixfit-addflx`, `pixfit-addtdcst` (`Tools/PixfitAdd`, `PixfitAddProps`, `PixfitLimits`) | induction on the arguments, from any state of the loop |
| C190 | `read_maps` of pixfit (`Tools/PixfitMaps`, `PixfitMapsProps`) | induction on the lines, from any state |
| C191 | the output grid of `qregrid` (`Tools/Qregrid`) | ordered field |
| C192 | `qmask` (`Tools/Circles`, `CirclesProps`) | induction on the lines and on the circles; C116 for each circle |
| C193 | `find_zero` and the limits of the temperature (`Tools/FindZero`) | induction on the points |
| C194 | groups and measurements of `pixfit-gfit` (`Tools/GfitGroups`) | induction on the sources |
| C195 | search of the temperatures in `pixfit-gfit` (`Tools/GfitSearch`) | induction on the rounds, for any fit |
| C196 | linear fit of `pixfit-gfit` (`Tools/GfitFit`) | normal equations, sums of squares |
| C197 | copy and selection of the members of structures (`Core/Reflex`, `Core/ReflexProps`) | induction on the structures |
| C198 | saved cross-matches of `catalog_pool` (`Astro/CatalogCache`) | invariant of the files over all earlier runs, for any matcher |
| C199 | groups of sources of `pixfit-extract` (`Tools/ExtractGroups`) | invariant of the loop over pairs (labels are the classes of the generated equivalence), then of the two loops that renumber |
| C200 | fit of `pixfit-extract` (`Tools/ExtractFit`) | refinement: the sums over stamps and their overlaps are the sums over the map; then minimisation as in C55 |
| C201 | bad fits of `pixfit-extract` (`Tools/ExtractPost`) | invariant of the loop on the bad sources (`Good`: the catalogue of groups describes the labels) |
| C202 | apertures of the groups of `pixfit-extract` (`Tools/ExtractAper`) | the masks in boxes refine sets of pixels of the map; fold over the groups; sums over boxes and stamps as sums over the map |
| C203 | residual and model map of `pixfit-extract` (`Tools/ExtractRes`) | the loops over stamps are sums over sources at each pixel |
| C204 | `pixfit-combine` (`Tools/Combine`) | induction on the maps: the indices in the merged list |
| C205 | `read_psf` (`Tools/ReadPsf`) | the search from the edge inwards; the square is copied with C64 |
| C206 | `pixfit-residual` (`Tools/Residual`) | C203's sum of images; sources that are not selected do not reach the map |
| C207 | the flux in `qaper` (`Tools/Qaper`) | the flux is linear in the image; the median of the background is constant; an exact solution of the least squares is found |
| C208 | the neighbours in `qaper` (`Tools/Qaper`) | each iteration removes a neighbour; induction on their number |
| C209 | the bands in `qaper` (`Tools/QaperBand`) | the first pattern of a list sorted by size is one of the longest; the keys of the table are distinct |
| C210 | `fits2ascii` (`Tools/Fits2Ascii`) | the table read back with the functions of C45 and C81; the texts of the values are inputs |
| C211 | names of `fits2ascii` (`Tools/Fits2Ascii`) | decision logic |
| C212 | `findsrc` (`Tools/FindSrc`) | on top of C56 (`qxmatch`) |
| C213 | `subsrc` (`Tools/Subsrc`) | induction on the sources |
| C214 | `vif_complex_t` (`Math/VifComplex`) | against the complex numbers of Mathlib |
| C215 | `qstack2`, choice and stack (`Tools/Qstack2`) | on top of C168 |
| C216 | `qstack2`, subpixel cutouts (`Tools/Qstack2`) | on top of C95 and C158 |
| C217 | `getgal`, sizes and files (`Tools/GetGal`) | induction on the images; `qstack` is an input |
| C218 | `getgal`, names (`Tools/GetGal`) | decision logic |
| C219 | `fluxcube`, flux (`Tools/FluxCube`, `Tools/LeastSq`) | uniqueness of the solution of least squares |
| C220 | `fluxcube`, bootstraps and batch files (`Tools/FluxCube`) | induction on the lines |
| C221 | `replace_blocks` (`Str/Blocks`) | induction on the blocks and their parts |
| C222 | `psffit` (`Tools/PsfFit`) | uniqueness of the solution of least squares |
| C223 | `qconvol` (`Tools/Qconvol`) | invariant of the search, refinement to `convolve2d` (C129) |
| C224 | `refgen`, messages (`Tools/RefgenWrap`) | invariant of the loop, termination measure |
| C225 | `refgen`, declarations (`Tools/RefgenMembers`) | refinement of the tree to a list, invariant of the stack |
| C226 | `refgen`, code written (`Tools/RefgenWrite`) | induction on the lines |
| C227 | `rotate`, `rotate_bicubic` (`Astro/Rotate`) | refinement to polar coordinates |
| C228 | `scale`, `scale_bicubic` (`Astro/Rotate`) | refinement |
| C229 | `pixfit-findprior` (`Tools/FindPrior`) | over C56; sorted lists and thresholds |
| C230 | `pixfit-reg2fits`, texts of circles (`Tools/FindPrior`) | round trip over C192, C34, C143 |
| C231 | `terminal_format`: `header`, `paragraph`, `bullet`, `item` (`Str/Terminal`) | over C39: words and widths |
| C232 | `fitstool r2c`: `rows_to_columns` (`Tools/FitsR2c`) | induction on the columns and rows |
| C233 | `pixfit-cutout` (`Tools/PixCutout`) | over C118; induction on the maps |
| C234 | `randsrc` (`Tools/RandSrc`) | over C33 and C148 |
| C235 | `radec2pix`, `sex2deg` tools (`Tools/Radec2Pix`) | over C105; induction on the arguments |
| C236 | `photinfo` (`Tools/PhotInfo`) | over C16 and C26; induction on the bands |
| C237 | `catalog_t::merge` on structures and scalars (`Astro/CatalogStruct`) | over C114; induction on the members |
| C238 | `add_comment`, `build_comments` (`Astro/CatComments`) | invariant over the calls; induction on the variables; a reader of the tree gets the variables back |
| C239 | the adjustments of the catalogue and the selection of `pixfit-gfit` (`Tools/GfitPrep`) | induction on the sources; the limit is idempotent, so the sources of a group do not interfere |
| C240 | the approximate errors (`cell_approx`) of `pixfit-extract` (`Tools/ExtractCell`) | the quadratic form of the normal matrix is positive, so that the inverse of a part is bounded by the part of the inverse (variational argument) |
| C241 | `sed_convert` and `sed2flux` on several spectra (`Astro/SedConvert`) | linearity of the flux in the spectrum; induction on the rows |
| C242 | the script of `pixfit-prep` and the arguments of `pixfit-combine` (`Tools/PixfitPrep`) | induction on the maps; the words that a shell finds are compared with the options, by C160 |
| C243 | `read_sentry`, the value that the reading of a table returns (`Io/ReadSentry`) | invariant over the operations on such values |
| C244 | `ascii::columns` in `write_table` (`Io/AsciiGroups`) | refinement to the table of the columns it stands for, then C82 |
| C245 | `build_catalog_list` (`Astro/CatList`) | injectivity, by induction on the catalogues; wrapped comments by C39 |
| C246 | `random_pdf`, `random_pdf_discrete` (`Math/RandomPdf`) | induction on the segments; the number is at most `y` iff the uniform number is at most the area left of `y` |
| C247 | `format_range` of `refgen` (`Tools/RefgenRange`) | induction on the ranges and their columns |
| C248 | `extract` of `fitstool` (`Tools/FitsExtract`) | decision logic over files, on top of the paths of C44 and C79 |
| C249 | `vif_main` of `qxmatch2` (`Tools/Qxmatch2`) | decision logic over tables and a match that are parameters |
| C250 | `imgtool` (`Tools/Imgtool`) | decision logic; algebra of the normalization of the kernel |
| C251 | `read_columns_info` of `input_table` (`Io/FitsColsInfo`) | induction on the columns |
| C252 | `pretty_type` (`Str/PrettyType`) | induction on types |
| C253 | `hash` with variables and temporaries (`Str/HashCategory`) | induction on the arguments |
| C254 | `format::scientific`, `fixed` and `precision` on a stream (`Str/StreamFormat`) | induction on the formats |
| C255 | names of functions in the backtrace (`Str/Demangled`) | induction on the name |
| C103, C104 | SED through filter, luminosity (`Astro/Sed`) | merge of two grids by induction on the rest of both |

All properties are expressible; those about doubles are expressed in exact
arithmetic and rounding is named as out of scope.

## 4. Findings

Where the code contradicts the property as stated, the model keeps the behaviour
of the code, a theorem `..._refuted` exhibits a concrete witness and the `_partial`
theorem gives the domain on which the property holds.

| property | what the code does |
|----|----|
| C01, C02 | move assignment leaves the source with stale dimensions; `inplace_remove` with repeated ids; dimension products overflow |
| C04 | indices of a narrow unsigned type wrap before the bound check |
| C06 | reversed or overflowing ranges pass the check |
| C07 | `const` views and views of views alias the source of an assignment |
| C09, C10 | mismatched append; removal with repeated ids |
| C11, C13 | shifting / replicating empty vectors divides by zero |
| C14 | `is_sorted` rejects equal neighbours and reads out of bounds on an empty vector (`range(1,0)` runs backwards) |
| C15 | `unique_ids` repeats NaN |
| C16 | `complement` returns nothing as soon as `ids.size()==v.size()` |
| C19 | `match` above 64 elements loses duplicates and pairs NaN |
| C21 | `equal_range` is half open and gives positions for absent values |
| C25 | `minmax_ids` returns the last maximum, `max_id` the first |
| C26 | `percentile(v,1)` is NaN when a NaN is present |
| C27, C69 | histogram by index skips later bins; `in_bin_open` with a single bin refuses values above it |
| C28, C29 | `cumul`/`integrate` of empty vectors read out of bounds; `cumul_reverse` adds only the next element; integrating at `x0=x1=x.back()` reads out of bounds; integration across bins counts too much |
| C31 | with unequal steps the cubic spline has corners at the knots: `al[i]` divides the left difference by the right step (line 286) |
| C33, C93 | `build_convex_hull` of no point reads outside the index array; hulls of a single point accept every point, hulls of points on a line the whole line; the distance to a hull of coincident points is +infinity |
| C94 | a counter-clockwise hull whose first three vertices are on a line is taken for clockwise; with integer coordinates the epsilon is 0 and no hull is closed |
| C95 | `bilinear_strict` gives the default value on the last row and column of pixels; an image with one row or column is read out of bounds by `bilinear` |
| C96 | `bicubic_strict` is continuous but not smooth at the pixels (each cell uses its own natural spline through four points); an image of one row is read out of bounds |
| C34–C39 | `split`/`replace` with an empty pattern and `replace_block` with empty markers never return; `cut` drops the tail, size 0 is undefined |
| C40, C41 | SHA-1 length overflows from 2^28 bytes; `hash("",n)=hash(n,"")` |
| C42 | `regex_replace`/`regex_extract` never return on an empty match, throw for an unmatched group at offset 0, `^` matches at each restart |
| C43 | `time_str(t<=0)` is undefined |
| C44 | `get_basename("foo/")` is `"/"`; an extension is found in a directory name |
| C80 | `explorer::close` closes the same handle twice |
| C45, C81–C83 | a table line starting with the single delimiter never advances; `write_table` with an empty first column reads out of bounds |
| C46, C85 | a failed conversion overwrites the variable and blocks later arguments; a vector of one empty string is read back empty |
| C49, C50 | `thread::pool` loses items at join; `parallel_for` is right only for first index 0 and at least two chunks |
| C60 | `shrink` with overflowing margins reads outside the image |
| C62, C63, C87 | zero dimension divides by zero; displacements reaching the image size leave the image unchanged instead of clearing it |
| C64 | doubly inverted regions claim 2^64-1 pixels; region size overflows |
| C65, C89 | reported areas count pixels several times; `min_area` counts the origin twice and keeps segments one pixel too small |
| C67, C68 | kernel / window larger than the image reads out of bounds (unsigned wrap of the loop limit) |
| C71 | 2-D argument with zero columns or a bracket in a string literal |
| C51 | without pivoting the decomposition fails on invertible matrices |
| C53 | inversion without pivoting solves for a vector of ones in every column and returns a wrong matrix |
| C56 | with several threads the reverse match of a source with two equally near neighbours is the last one instead of the first; with more threads than sources the empty share of a thread is merged with the range `0-_-(0-1)` and the program stops (`qxmatch.hpp:588-592`, `C56_few_refuted`) |
| C57 | the bucket search never visits the far diagonal of a large field, reports the same neighbour twice when two or more are asked for, divides by a bucket size of zero when the second catalogue has no extent in one direction (the rescue for small catalogues sets the flag the wrong way, line 227), leaves the reverse matches of a self-match unset; stops with more threads than sources in one of the catalogues (`qxmatch.hpp:468-489`, `C57_few_refuted`) |
| C58 | `xmatch_clean_best` aborts as soon as one source has no match |
| C90 | with LAPACK `solve` solves the transposed system and `invert_symmetric` fills one triangle only |
| C92 | `linfit_nn` never reports success, gives NaN when every template anticorrelates with the data, and negative parameters for anticorrelated templates |
| C59 | with a negative upper bound the largest value drawn is one above it; `ma+1-mi` overflows for a full-range interval |
| C70 | `random_coin` of probability 0 is true when the generator returns exactly 0 |
| C72 | nested list whose first list is empty silently drops the others |
| C98 | `angdist_less` compares squared sines: a radius above 180 degrees excludes near points, a negative radius acts as its absolute value |
| C99 | `normalize_coordinates` leaves Dec outside [-90,90] for Dec below -270 or above 450 (-300 becomes 120); with rounding it never ends for a huge RA |
| C100 | `vernal_angle` tests the RA in radians against 180, so the sign is never flipped and the angle is wrong for 180 < RA < 360 |
| C103 | `sed2flux` is NaN for an SED ending exactly with the filter, reads out of bounds for a filter starting at or after the end of the SED |
| C105 | `deg2sex`/`sex2deg` lose the sign of angles between -1 and 0 ("-0:30:00" is read as +0.5); seconds below 1e-4 are written as "01e-05.0" |
| C108 | `weighted_median` with equal weights returns the lower middle value, `median` the upper one |
| C109 | `integrate_func` shifts `1 << (2*m)` beyond the `int` when 15 rows do not converge; accepts an accidental agreement in the first row |
| C110 | `integrate_gauss` divides by the width of the interval: it is an average, not the integral |
| C111 | a template without flux in the filters has a NaN amplitude, and can be the best fit of `template_fit` |
| C112 | `multi_template_fit`: `continue` on a singular combination (or, with upper limits, one refused by the constraints) skips the increment of the combination: no further combination is examined |
| C112 | `multi_template_fit` with upper limits returns the fluxes multiplied by the errors |
| C112 | `multi_template_fit` without LAPACK fills one triangle of the matrix only: wrong amplitudes |
| C113 | `limweight`: error above 1% (0.3% announced) just below -3, and jump down at -3 |
| C114 | `merge_flux` aborts if a catalogue with new sources was added since the previous call |
| C115 | `write_regions_physical` writes pixel coordinates from 0 and the reader subtracts 1: the centres come back shifted by one pixel |
| C115 | regions written with a WCS that is not spatial (`wcs;`) are read back as an empty list; colour and text are not written |
| C115 | after a `physical` line, a later `fk5` line is ignored; a text is cut at its first blank |
| C116 | `circular_mask` is null when `x+radius <= 0`, although corners of the first pixels may be in the disc; a circle inside a pixel masks nothing; a box without height masks pixels beyond its ends |
| C117 | the default centre of `circular_mask` is half a pixel away from the central pixel (`dims/2.0`) |
| C117 | `radial_profile` passes (radius, x, y) in the wrong order: the rings are not around the centre |
| C118 | a source at a half-integer position less than `hsize` from the first edge makes `qstack` abort |
| C118 | `qstack` accepts images with an additional axis of length 1, then gives cfitsio corners of two elements (out of bounds read) |
| C118 | sources whose square only meets the last row or column are ignored; with weights also those whose square ends there |
| C118 | with section files and weights, only the numbers of sources are compared (weights of other sources), and the offsets are not returned |
| C120 | `setkey` of a new key inserts the card in the middle of the last card if that contains `END` elsewhere than at its beginning; both keys are lost |
| C120 | `getkey` cuts values at the first slash, also within quotes (`'erg/s'` gives `erg`) |
| C120 | `setkey` keeping a comment that ends with `&` may overwrite the last character of the new value |
| C121 | `parse_header` then `serialize_header` changes comment cards with a slash and values with escaped quotes, and cuts values continued over several cards |
| C121 | `parse_header` of a continuation by an empty text, or of a continuation as first card, is undefined behaviour (`back()` of an empty container) |
| C122 | `make_wcs_header` writes the number of axes in `NAXES` instead of `NAXIS` |
| C122 | `filter_wcs` writes `RADECSYS` and `SECPIX` cards twice, and keeps cards whose name only begins like a WCS keyword |
| C123 | a file with an axis `RA` and no `DEC` (the constructor tests `tx != npos` twice) or with one axis: `ad2xy` and `xy2ad` access memory out of bounds |
| C124 | `wcs` move assignment does not move `isset`: `update()` on the target may do nothing, and stale parameters are used |
| C124 | `wcs(naxis)` allocates with `new` what the destructor frees with `free` (through `wcsvfree`) |
| C125 | a column name used twice: neither column can be read or removed, and `update_column` adds another |
| C125 | row-oriented tables: dimensions `(n,1)` refused or read as `(1,n)`; a table with one row is reopened as column-oriented; rows of a first column without elements are lost; the only column keeps its number of rows when updated; a number is read from many rows |
| C125 | the move constructor of FITS files does not move the format: only the first row of a row-oriented table is then read, silently |
| C126 | conversions allowed by default that change values: `uint` from signed, `char` and `bool` from byte, `float` from 32 and 64 bit integers, `double` from 64 bit integers |
| C127 | `read_elements` and `update_elements` do not compare the number of ranges with the dimensions of the vector: elements of other indices are read or changed |
| C127 | `read_elements` refuses columns of characters whose first row has only zeros and ones (taken for booleans), and needs two indices for a row-oriented vector of one dimension |
| C128 | `segment_distance`: the distance is not always to the nearest pixel of a segment, and the value given to a pixel can be that of another segment than the pixel whose index is stored |
| C129 | `convolve2d(map, kernel)`: the last row and column of a kernel of odd dimensions are ignored; the kernel `{{1}}` gives zero |
| C130 | `convolver2d`: the padding uses the wrong dimension; taller maps write outside of the array, wider maps are wrong from the second call; cyclic results are not divided by the number of elements |
| C131 | `make_transition_kernel`: the result is not divided by the number of elements; taller images are divided in part only, wide images abort |
| C132 | `image::update` checks types as for reading: `float` is refused in an image of `double`, `double` is accepted and rounded in an image of integers |
| C133 | `reach_hdu` inserts the missing HDUs after the current one: if it is not the last one, the next ones are moved to the end, and the HDU reached is the former last one |
| C134 | `read_subset`: a range that starts after the end of the axis (`n-_`) or after its own end is not checked |
| C135 | `file_base::status_` is not reset after an error: an object whose `open` failed can never open a file again; after another error, existing columns are reported as missing |
| C136 | `segment_deblend` never segments the last pixel in the order of the values (`ipos > 0`); it aborts when `out` is used a second time (`id`, `px`, `py` are not cleared); it reads an empty image out of bounds |
| C137 | `segment_deblend` counts the peak twice in `area`, `flux`, `bx`, `by` (the first pixel is not marked as visited) |
| C138 | `min_area` is compared to this area: segments of `min_area - 1` pixels are kept; `origin`, `px`, `py` of a segment are not changed when a brighter small segment is given to it |
| C139 | `regrid_interpolate` (nearest) tests `mx > 0`, `my > 0`: the first row and column are never covered; (linear) the last row and column are never covered; with `linearize` an integer shift is done in the opposite direction (the copy of the drizzle code was not inverted), and the source is read with the width of the destination, out of bounds when it is smaller |
| C140 | `regrid_drizzle` counts with its whole area a projected pixel whose bounds contain a single destination pixel, even if it is partly outside of the image or only touches it |
| C141 | `regrid_drizzle` with `linearize`: the area is that of the whole pixel (a factor `pixfrac^2` is lost) and is the product of the sides (wrong for axes that are not perpendicular) |
| C142 | `get_cutout` with a finite default value: pixels outside of the first image that covers the source are never filled from the next images, because only NaN pixels are; for a source that is not covered, the header says that the cutout has no pixels; with no image at all the size of the box is converted from NaN |
| C143 | `from_string` accepts `-1` for unsigned integers (giving the largest value), refuses empty texts and texts with spaces for `std::string`, and reads 8 bit integers as characters; `to_string` writes six digits of floating point numbers |
| C144 | `mpfit`: a parameter with a lower limit can only increase, one with an upper limit can only decrease, and one with both limits is never fitted (the steps and derivatives are suppressed even when the parameter is not at its limit); such fits stop at once with `success = true`. `chi2` is the larger one of the result and of the last trial, even when it was rejected. The function is evaluated outside of the limits for two-sided or left derivatives. The norm of NaN and zeros is zero. All options are ignored when `nparam` is zero |
| C145 | `mpfit`: the gradient is not divided by the norm of the deviates (it is in MINPACK), so that `gtol` depends on the unit of the deviates |
| C146 | `mpfit_lmpar`: `clamp(par, paru, parl)` has its bounds exchanged: a damping between the bounds is replaced by `paru`. After ten iterations the damping that is returned is not the one of the step |
| C147 | `mpfit_covar`: for degenerate parameters the loop that sets elements to zero leaves out the diagonal, and the variance is a small element of the triangle, possibly negative |
| C148 | `randpos_rejection_sampling` with `max_iter = 0` draws more than 2^64 positions before it fails. `randpos_uniform_box` without region has a template parameter that cannot be deduced, and cannot be called |
| C149 | `randpos_power_circle`: the positions can be further from the centre than `r0`; `options.max_iter` is not passed to the rejection sampling (1000 is always used). `levels = 0` gives 2^64-1 levels |
| C150 | `angcorrel`: the pairs of an object and a random position are normalized by m/n instead of (m-1)/n, so that the value is the Landy-Szalay estimator minus 2 dr/(n rr). Objects are paired with themselves if a bin contains zero |
| C151 | `read_filter_db`: `a = b.dat` defines the filter `a ` (with a space). `get_filter`: the response of a file is not normalized to unit area, and `rlam` (the integral of response times wavelength) scales with it; `rlam` of a range filter is the middle and not the integrated wavelength; names with a colon cannot be found; a range with its bounds exchanged is accepted; an empty file is undefined |
| C152 | `pick_sources`: the test allows `x+hsize` up to the width, but the square is around the rounded position: in the last half of a pixel the program stops. Sources whose square begins at row or column 0 are left out. NaN coordinates pass the test |
| C153 | `get_band(bands, notes, band, note, bid)` has a template parameter that cannot be deduced |
| C154 | `lumdist`, `lookback_time`, `propsize`, `vuniverse` on vectors of 1600 numbers or more: stop if no redshift is positive (`min` of an empty vector), give NaN if all the positive ones are the same (0/0 in the interpolation), and 0 for a redshift that is NaN (shorter vectors give NaN) |
| C156 | `psffit` uses half of the second dimension of the source with the first coordinate and conversely, and a region of `2*(n/2)+1` pixels: it only works for squares with an odd number of pixels |
| C157 | `srcsub` gives `vec1i` to parameters `vec1u&`: it does not compile when used. With the right type it exchanges the axes of sources that are not square, and stops for even sizes |
| C158 | `translate(img, dx, dy)` gives the default value to the pixels that come from the last row or column (`bilinear_strict`, C95): a shift by zero erases them; an image of one row or column disappears |
| C159 | `make_psf` ignores the result of `from_string`: `gaussian,abc,2` is an image of zeros, `gaussian,,2` uses a number without a value. The source of a file loses its last row and column, and is zero everywhere if its peak is at a border |
| C160 | `read(arg_list(a.n, b.n))` without any argument gives to `b.n` the value of `a.n`; `arg_list(name(v[f(i)], "x"), n)` is cut at the first `)`, so that `n` is read under an empty name |
| C161 | `program_arguments::write` continues with `read_args_` after a variable with a label: the next variables are modified and not written |
| C162 | `make_cmd` does not quote the program name, nor blanks before `=`, does not escape quotes and drops empty arguments; `save_args` does not quote at all |
| C163 | `write_header` appends cards: a keyword that the file already has keeps its first value; a header whose size is a multiple of 80 (any header that was read) adds a blank card each time; `EXTNAME` and all names that begin with `NAXIS` are dropped |
| C164 | `read_keyword` trims blanks and quotes and does not undo the doubling of quotes: `it's` is read back as `it''s`, `'a'` as `a`, and leading blanks are lost; more than 68 characters are cut without error |
| C165 | lines of a `.sectfits` list that end with a carriage return or that are absolute paths give names of files that do not exist (outside the statement) |
| C167 | `qdist` fills only the elements `(j, i)` with `j > i`: the distance from source 0 to source 1 is 0 at `(0, 1)` |
| C169 | `vectorize_lambda_first` forwards the extra arguments in every turn: a temporary given to a parameter taken by value is moved from in the first call, and empty in the others |
| C170 | `min(NaN, 1)` is 1 but `min({NaN}, {1})` is `{NaN}`; `min({2}, {1.5})` is `{1}`, smaller than both; `min({-1}, {3u})` is `{3}` |
| C171 | `minimize_bfgs` with `max_iter = 0` makes one step |
| C172 | `translate_bicubic` never uses its default value: pixels from the outside of the image are extrapolated, to any size |
| C173 | `field_area_hull` of one eighth of the sphere is less than 3600 square degrees, instead of more than 5100 |
| C174 | `CUNIT1A` is not corrected; `CTYPE` still announces SIP (`-SIP`) when the coefficients were removed, and `A_DMAX` stays; comments with a slash are altered |
| C175 | the checks of the unit tests accept NaN where a number is expected, and the reverse |
| C176 | `convolve` prolongs the second function by straight lines: `[0,0,0,1]` with `[1,0,0,0]` gives `[4,3,2,1]`, in the other order `[0,0,0,1]`; 3 points are refused by a message asking for at least 3 |
| C177 | `progress_tick` ends with the line of an iteration that does not exist (51 of 50, 102%); with 1 to 32 iterations the length of the rest of the bar is -1, converted to an unsigned integer: undefined behaviour |
| C178 | `update_columns` of a structure that contains a structure writes the columns of the latter a second time: they can no longer be read; members whose names differ by the case are written under one name and cannot be read |
| C179 | `field_area` of 20 or more sources of one right ascension or one declination converts a NaN to an integer: undefined behaviour; 20 sources spread over 342 by 19 degrees have an area of 0, because the extent is measured the short way round |
| C180 | `prompt` repeats its question for ever when the input ends; a text of several words is refused |
| C181 | `system_var<std::string>(name, def)` returns the default when the variable has several words, or is empty |
| C182 | `fitstool editkwd`: a value between quotes is refused; `1e-3` is stored as 0; `20161116000`, `NaN` and `inf` convert a number out of range to `int` (undefined behaviour) |
| C183 | `fitstool make2d` leaves `CD3_3` in the header; questions (`[y/n]`) are repeated for ever when the input ends |
| C184 | `fitstool remove` turns names into upper case and then compares exactly: columns with lower case letters cannot be removed |
| C185 | `fitstool transpose` ("no data is lost") replaces all the rows but the first by zeros |
| C186 | `fitstool meta` adds the position of a dimension to the sorting permutation of the counts instead of the ranks: with dimensions 3 (three times), 5 and 7, it takes 5 |
| C187 | `fitstool cpwcs` ("previous WCS data will be lost") leaves the keywords that the first file does not have, such as `CDELT1` next to a copied `CD1_1`; quotes in texts are doubled; `T` becomes 0 |
| C188 | `pixfit-addflx` aborts when a measurement comes before `band=`; an incomplete measurement (at the end, or before another `band=`) is dropped without an error |
| C189 | `pixfit-addtdcst` with only `min=` erases the upper limit that the source had |
| C190 | the settings of a map file before the first `band=` are lost without an error (`C190_lost`) |
| C191 | `qregrid` without coordinates can lose half a pixel of the last row and column; with `aspix=` (or `ratio=` and coordinates) the centre is taken with rows and columns exchanged, so that the output of an image that is not square is not centred on it and may not touch it |
| C192 | `qmask`: circles in physical coordinates are one pixel off; the last line `fk5`/`physical` decides for all circles; a region file without circles and a radius without `"` abort; two circles with the same half of a pixel mask the whole pixel |
| C193 | `find_zero` gives NaN at two successive zeros; `pixfit-gfit` compares a chi2 divided by the degrees of freedom with one that is not divided, so that the limits of the temperature are not those of one standard deviation |
| C194 | `pixfit-gfit` does not follow chains of shared flux groups, so that sources linked through a third one are fitted apart and the flux group is used twice; a source with its own measurement and a flux group in one band leaves its measurement in the chi2 without a model |
| C195 | `pixfit-gfit` with several rounds: aborts if no point of the first grid is allowed; after a round without improvement the next grid is around the wrong temperature; the limits of the temperature are those of another source if some sources are not fitted; the chi2 written for early rounds are rescaled to the best of the last |
| C196 | `pixfit-gfit` fits sources that share a measurement as if each were alone: the terms between sources are computed in the upper half and then overwritten by the zeros of the lower half |
| C197 | `pick_elements` and `merge_elements` do not compare the names of nested structures: a nested structure is copied into every nested structure of the destination, so that `a.x` gets the values of `b.x`; vectors of three dimensions or more are not selected |
| C198 | `catalog_pool` takes a saved cross-match if only the numbers of sources are the same: changed positions or another selection of the same size are matched to the wrong sources without warning |
| C201 | `pixfit-extract.cpp:834-902`: `is_grouped[j]`, `group_fit_id[j]`, `id_old[j]` are indexed with positions in the list of sources on the map, and `nidg.push_back(j)` with the position of the fitted source | If a source is off the map, bad sources can stay without group; a new group gets the position of other sources as soon as a group is fitted as one source; without any group before the fit nothing is done | `C201_offmap_refuted`, `C201_position_refuted`, `C201_alone_refuted` |
| C202 | `pixfit-extract.cpp:962-967`: the limits of the box of a group are converted to `uint_t` without a test that the group is on the map | A pair of close sources at the left of the map or above it is undefined behaviour; one at the right stops the program | `C202_offmap_refuted`, `C202_right_refuted` |
| C203 | `pixfit-extract.cpp:912`: `is_grouped[i]` is indexed with the position in the list of sources on the map | If a source is off the map, sources without group can stay in the residual map (and in the fluxes of the groups) | `C203_offmap_refuted` |
| C204 | `pixfit-combine.cpp:69-83`: a fit without groups gets the identifiers 0, which are not changed to `npos` if no coverage is positive; the smallest identifier with positive coverage stands for the first group | Sources of a map without groups refer to a group of another map; if the mask of the first group is empty, all sources of the map refer to wrong groups | `C204_missing_refuted`, `C204_empty_refuted` |
| C205 | `pixfit-common.hpp:241-260`: the size of the PSF is that of the line and the column of the brightest pixel, and at most the distance to the closest edge | Bright parts of the PSF on its diagonals are lost; a PSF whose brightest pixel is on an edge is reduced to one pixel | `C205_diagonal_refuted`, `C205_edge_refuted` |
| C206 | `pixfit-residual.cpp:58-60`: the positions are compared with `-hsize` before they are rounded | A source less than half a pixel before this limit is not removed, although its PSF covers the first line or column of the map | `C206_limit_refuted` |
| C207 | `qaper.cpp:389,398,477`: pixels more than 10% in a circle of bad pixels are set to zero before the background is subtracted, but keep a part of their weight; `qaper.cpp:138-142`: the arguments are read before their number is tested | A wrong flux if the aperture contains the edge of such a circle; undefined behaviour with less than three arguments | `C207_bad_refuted`, `C207_args_refuted` |
| C208 | `qaper.cpp:453-459`: a fit that fails is not noticed | A neighbour outside of the region of the fit makes the flux of the source NaN, without a message | `C208_outside_refuted` |
| C209 | `qaper.cpp:245-249,519`: the patterns are searched in the whole path, and those of the same size are in an unspecified order; `qaper.cpp:192`: the pattern of `wfi_U38` is `wfi-U32` | The band of an image can be that of its directory; `wfi-U38.fits` gets the band `wfi_U` | `C209_directory_refuted`, `C209_tie_refuted`, `C209_u38_refuted` |
| C210 | `fits2ascii.cpp:347`: `max` of a vector without elements; `:76` uses `to_string_vector` for the values, although a version with all the digits exists in lines 9-18 | A table without rows stops the program; texts with blanks are written without quotes; floating point numbers lose their digits after the sixth | `C210_empty_refuted`, `C210_words_refuted`, `C210_digits_refuted` |
| C211 | `fits2ascii.cpp:265`: `to_string(ide)` of a vector is one text for all columns; `:298` compares names with their case | The split columns without a name are all called e.g. `FLUX_{0, 1}`; a column cannot be renamed with its name in the output | `C211_split_refuted`, `C211_rename_refuted` |
| C212 | `findsrc.cpp:90-94`: the matches that do not exist are kept; `:59-61` does not check the indices | Catalogues of less than `nsrc` (10) sources: lines with the index `npos`, and the program stops if a column is shown; several indices out of range are listed at distance 0 | `C212_few_refuted`, `C212_range_refuted` |
| C213 | `subsrc.cpp:125-128`: no selection for text catalogues | One source without a flux makes all the image NaN; `include` and `exclude` are ignored; negative sources are added | `C213_text_refuted`, `C213_ignored_refuted` |
| C214 | `math/complex.hpp:72-75`: `norm` is the modulus, `std::norm` is its square; `:51-65` defines `real()` and `imag()` out of the struct without its name, so that nothing compiles with `USE_VIF_COMPLEX` | Choosing the other implementation changes the values of `norm` | `C214_norm_refuted` |
| C215 | `qstack2.cpp:345`: `qstack_mean_bootstrap` without the weights; `:235` `|| median` makes the error message below unreachable | Weights are ignored by the bootstraps and with the median; bounds in the wrong order stop the program | `C215_weights_refuted`, `C215_median_refuted`, `C215_order_refuted` |
| C216 | `qstack2.cpp:222-226`: `translate` with `dy`, `dx` instead of `-dy`, `-dx` | The offset of the source in the cutout is doubled instead of removed | `C216_direction_refuted` |
| C217 | `getgal.cpp:209,249`: `++ib` before `thsize[ib]` | Each image gets the size of the next one, and the program stops at the last one | `C217_sizes_refuted` |
| C218 | `getgal.cpp:287,321`: the short name can be empty | The files of one image replace those of the others | `C218_names_refuted` |
| C219 | `fluxcube.cpp:150`: the template is `psf*ipsf`, also for the pixels added by `large_bg` | The wings of the PSF are fitted as background and the flux is wrong | `C219_large_refuted` |
| C220 | `fluxcube.cpp:189-191,197-206,527`: `extract` of each draw replaces the image; `:106-131`: the mask is only made again with a new PSF | With bootstraps the image and residual written are those of the last draw; a new `frac` in a batch line is ignored | `C220_image_refuted`, `C220_frac_refuted` |
| C221 | `string-find-replace.hpp:180-187`: the separators of `replace_blocks` are searched up to the end of the text | With two lists in a text the last item of the first one swallows the text up to a separator of the second one; an empty separator never ends | `C221_lists_refuted`, `C221_empty_separator` |
| C222 | `psffit.cpp:9,40`: `argc < 3` but `argv[3]` is read; `:66-69`: no default name of the residual with `nobg` | With two arguments a null pointer is read; the residual goes to a file named `1` | `C222_arguments_refuted`, `C222_residual_refuted` |
| C223 | `qconvol.cpp:55-66`: the kernel is cut at the first distance where its cross is zero, or at the closest edge; `:79`: `1.117` for `1.177`; `convolve2d` ignores the last row and column (C129) | Rings and diagonals of the kernel are lost; a kernel with its peak on an edge, or a Gaussian of one pixel, gives an image of zeros; the FWHM is 5% too large | `C223_ring_refuted`, `C223_edge_refuted`, `C223_small_refuted`, `C223_fwhm_refuted` |
| C224 | `refgen.cpp:322`: the end of the line is searched backward from `pos` to the start of the message, not of the line | A message with a word longer than a line (not the first one) loops forever | `C224_long_refuted` |
| C225 | `refgen.cpp:196-212`: a structure already in `db` is skipped, also if only declared there | The members of a structure declared before it is defined are lost | `C225_forward_refuted` |
| C226 | `refgen.cpp:70-82`: the columns of the start and the end are exchanged; `:542`: the code is only visited if there is no diagnostic; `:552`: the structures are sorted by line only; `:612-617`: two characters after the brace are assumed | Structures whose brace is not below their first character, or ends the line, stop the program; a warning removes all the reflection data; nested structures on one line corrupt the code | `C226_brace_refuted`, `C226_end_refuted`, `C226_warning_refuted`, `C226_nested_refuted` |
| C227 | `image.hpp:216-260`, `interpolate.hpp:229-246`, `465-488`: positions on the last row or column are outside | `rotate(img, 0)` replaces the last row and column by the default value, `rotate_bicubic(img, 0)` the first one and the last two | `C227_zero_refuted`, `C227_cubic_refuted` |
| C228 | `image.hpp:177-214`: the same, and the factor is not checked | `scale(img, 1)` is not the image; a factor of zero is undefined behaviour | `C228_one_refuted`, `C228_zero_refuted` |
| C229 | `pixfit-findprior.cpp:55-70`: `nsrc` neighbours at most; `regs(_,0)` on an empty vector | The farthest sources of a crowded circle are lost without a warning; a region file without circles stops the program | `C229_many_refuted`, `C229_empty_refuted` |
| C230 | `pixfit-reg2fits.cpp:27`, `string_conversion.hpp:168-185`: `from_string` accepts `nan` but not after a blank, as `pixfit-findprior.cpp:75` writes it | One source of unknown redshift and no source is converted; a file without sources stops the program | `C230_nan_refuted`, `C230_empty_refuted` |
| C231 | `string-format.hpp:86-96`: the width left for the description of a bullet is not positive | With a name of 75 characters or more, the description is written without wrapping | `C231_bullet_refuted` |
| C232 | `fitstool.cpp:383-385, 427-433`: a `TFORM` of one letter `A` is not seen as a string, and its buffer of characters is passed to `fits_read_col` as an array of pointers | Undefined behaviour for a column of single characters | `C232_character_refuted` |
| C232 | `fitstool.cpp:359-363`: only the signed type has its width doubled, `unsigned long` has 8 bytes too | Values written past the end of the buffer for unsigned 32-bit integers | `C232_unsigned_refuted` |
| C232 | `fitstool.cpp:383-402`: the input `TDIM` is not read, and `1J` is not seen as a scalar | The dimensions of the values of a row are lost; a column `1J` gives two dimensions and `J` one | `C232_dims_refuted`, `C232_scalar_refuted` |
| C232 | `fitstool.cpp:319`: the names are compared before the `!` is added | `out=!in.fits` overwrites the input | `C232_same_refuted` |
| C233 | `pixfit-cutout.cpp:6`: `argv[1]` is used without a test of `argc` | Undefined behaviour without arguments | `C233_arguments_refuted` |
| C233 | `pixfit-cutout.cpp:46`, `io/fits.hpp:84-86`: the header is that of the first HDU, the image that of the first HDU with data | A cutout of an image in an extension has no astrometry | `C233_extension_refuted` |
| C233 | `qstack.hpp:148-150` (as C118) | A cutout that has only the last row or column of the map is empty | `C233_last_refuted` |
| C234 | `randsrc.cpp:55-63`: the hull is in the plane (RA, Dec) | Random positions at RA = 180 for a field around RA = 0 | `C234_origin_refuted` |
| C235 | `radec2pix.cpp:41`: the value returned by `sex2deg` is not used | A position such as `1:00:00 20` prints NaN without an error | `C235_sexagesimal_refuted` |
| C236 | `photinfo.cpp:121-122`: `max` of the lengths of the errors of the detections | A catalogue without detection stops the program | `C236_none_refuted` |
| C236 | `photinfo.cpp:65`: `[_-2000]` takes 2001 elements | A catalogue with exactly 2000 detections stops the program | `C236_2000_refuted` |
| C236 | `photinfo.cpp:69`: `indgen(gidg.size())` in place of `gidg` | The width of the columns is that of the first errors of the file, not of the detections | `C236_width_refuted` |
| C238 | `catalog_merge.hpp:42, 66`: the names are trimmed after they are compared | Two variables whose names differ by blanks stop the program | `C238_blank_refuted` |
| C239 | `pixfit-gfit.cpp:295-302`: the limit of the groups is inside `if (is_finite(snr_max))` | `snr_max_group` alone has no effect | `C239_option_refuted` |
| C239 | `pixfit-gfit.cpp:300`: no test `group_err > 0`, as there is for the sources | A group with an error of zero (not valid) gets a valid error from the limit | `C239_zero_refuted` |
| C241 | `astro.hpp:1344-1356`: the loop over the rows of `sed` reads the same row of `lam`, the number of rows of which is not checked | With fewer rows of wavelengths memory is read out of bounds; with more, the last ones are silently ignored | `C241_rows_refuted` |
| C242 | `pixfit-prep.cpp:35`, `pixfit-combine.cpp:8`: the script gives the catalogues to `pixfit-combine` as plain arguments, but it reads them in `maps=`, `incat=` and `outcat=` | The last command of every script that `pixfit-prep` writes stops with an error | `C242_combine_refuted` |
| C242 | `pixfit-prep.cpp:15-25`: `group_aper_size` is not written | The size of the apertures given for a map is ignored by the script | `C242_aperture_refuted` |
| C242 | `pixfit-prep.cpp:5-9`: `argc` is not checked | With fewer than four arguments a string is made of a null pointer | `C242_arguments_refuted` |
| C243 | `fits/table.hpp:348-354`: the move assignment of `read_sentry` overwrites an error that was not looked at | `s = table.read_columns(...)` can lose an error: neither the caller nor the destructor sees it | `C243_assign_refuted` |
| C243 | `fits/table.hpp:578-583,663-691`: the members of a structure are read into temporary values | A missing member stops the program although the caller would look at the value that `read_columns` returns | `C243_struct_refuted` |
| C244 | `io/ascii.hpp:490-503,562-617`: the number given to `ascii::columns` is not compared with the vectors | With a smaller number the values of the lines are mixed, without a message | `C244_less_refuted` |
| C244 | `io/ascii.hpp:578`: `v.safe(i,k)` with `k` up to the number given | With a larger number memory is read out of bounds | `C244_more_refuted` |
| C245 | `catalog_merge.hpp:265-266`: names are written as they are | A name with line breaks can make one catalogue look like two in the list | `C245_break_refuted` |
| C246 | `math/random.hpp:69,79`: the sizes of `px` and `py` are not compared | With fewer densities than positions memory is read out of bounds | `C246_short_refuted` |
| C246 | `math/random.hpp:66-71,88-92`: the sizes are not checked | With a single position `random_pdf` gives a number of `[0,1)` instead; without weights `random_pdf_discrete` gives the index 0 | `C246_single_refuted`, `C246_empty_refuted` |
| C246 | libstdc++ 13, `lower_bound` with the uniform number 0 | An index of weight zero, or not a number if the first two densities are zero | `C246_zero_refuted`, `C246_nan_refuted` |
| C247 | `refgen.cpp:432`: `cend <= coffset+width` although `cend` is the column after the range | A range up to the last character of the line, or beyond the width of the terminal, is not marked at all | `C247_end_refuted` |
| C247 | `refgen.cpp:429-435`: `lend` is not looked at | For a range that ends in another line, the columns between its start and the column of its end are marked, even before its start | `C247_lines_refuted` |
| C248 | `fitstool.cpp:1319-1322`: the status of `fits_copy_hdu` and `fits_close_file` is not checked | If the HDU cannot be written, success is returned, and the output file, also one that existed, is left incomplete | `C248_copy_refuted` |
| C248 | `fitstool.cpp:1313`: `hdu+1` is converted from `uint_t` to `int` | `hdu=4294967296` copies the primary HDU | `C248_wrap_refuted` |
| C248 | `fitstool.cpp:1301`: the directory is made before the `!` of the name is looked at | `out=!d/a` makes a directory `!d`, and then the file `d/a` cannot be created if there is no `d` | `C248_dirs_refuted` |
| C249 | `qxmatch2.cpp:115-121, 138-140`: no return after the messages of errors | An empty catalogue is an error on the screen, but the program goes on to match and save, and returns 0 | `C249_empty_refuted` |
| C249 | `qxmatch2.cpp:43`: the help calls `pos` a suffix of the names | `pos` goes before the names, with a dot | `C249_two` |
| C250 | `imgtool.cpp:36-47`: the values that the operations return are not used | The status of the program is 0 for all errors, so that a script cannot see them | `C250_status_refuted` |
| C250 | `imgtool.cpp:178-179`: the help says to run `fitstool operation help` | `imgtool convolve help` is an error, since three arguments are asked for first; `imgtool help convolve` works | `C250_help_refuted` |
| C251 | `table.hpp:238-241`: no case for the types `L`, `C`, `M`, `X`, `P`, `Q` | Columns of logical values, the booleans of the FITS standard, are not in the list of `read_columns_info` | `C251_logical_refuted` |
| C251 | `table.hpp:185-187`: the first row of a column of bytes is read even if there is no row | The columns of a table without rows cannot be listed if one is of bytes: an exception is thrown | `C251_norow_refuted` |
| C252 | `string_conversion.hpp:230-243`: these overloads come before those for the types with a name, which they do not see | `pretty_type` of a reference, pointer or constant gives the mangled name of the compiler, such as `i&` for `int&` | `C252_name_refuted` |
| C252 | the same lines | `const int&` and `int&` have the same name | `C252_const_refuted` |
| C253 | `string-hash.hpp:161`: the name of the type is that of `decltype(t)`, with the reference | `hash(x)` of a variable and `hash(5)` of its value hash different texts (`i&5` and `i5`) | `C253_category_refuted` |
| C254 | `string_conversion.hpp:111`: `o.copyfmt(old)` also restores the width | `o << std::setw(5) << format::fixed(x) << y` pads `y` too | `C254_width_refuted` |
| C254 | `string_conversion.hpp:105-106`: `old` has no buffer, hence `badbit`, and `copyfmt` gives it the mask of exceptions of `o` | after `std::cout.exceptions(std::ios::badbit)` any formatted object throws | `C254_throw_refuted` |
| C254 | `string_conversion.hpp:91`: a `uint_t` is given to `std::setprecision`, which takes an `int` | `format::precision(x, p)` takes `p` modulo `2^32` | `C254_precision_refuted` |
| C255 | `error.hpp:201-206`: a `<` that nothing closes is taken for template arguments, and the last character of the name for its `>` | `vif::operator<(a, b)` is shown as `vif::operator<(a,b>` | `C255_operator_refuted` |
| C255 | `error.hpp:209`: any last argument `void` is removed | `f<void>(int)` is shown as `f<>(int)` | `C255_void_refuted` |
| C104 | `sed_luminosity` integrates up to the first point after the upper limit and is NaN when the limit is the last point |

## 5. What is modelled and what is not

* Modelled by contract: `std::sort`, `std::stable_sort`, `std::rotate`,
  `std::lower_bound`, `std::nth_element`, `std::string` searches. `std::partition` is
  any function producing an allowed result. `regexec` is an arbitrary function (NUL
  bytes in the subject not modelled).
* `from_string`/`to_string` are arbitrary functions in the tables and arguments models.
  Directory listings and system calls are arbitrary functions. `pretty_type` names are
  arbitrary in `hash`.
* Not modelled: rounding of floating point; the float quotient in `cut` is exact below
  2^24; `get_word(INT_MIN)`; `write_table` with tuple arguments; `named_t` arguments;
  the one-past-the-end arithmetic of column iterators; image sizes beyond the range of
  the signed integer type; `reserve` calls; allocation failure.
* Linear algebra: `inplace_lu`/`solve`/`determinant`/`invert`, Cholesky and its solvers,
  `linfit`, `linfit_batch`, `linfit_nn` and the LAPACK drivers (LAPACK routines by their
  contract), products and plane transforms over a ring. The SVD is not modelled.
* Sky coordinates, unit conversions, SED fluxes and Gaussian integrals are over the reals or an
  ordered field; sine, cosine and arc functions are Mathlib's or abstract functions with the
  contract stated in the file; the WCS library is an arbitrary map.
* FFTW is modelled by its documentation (`Astro/Fft.lean`): exact unnormalised transforms, half of the complex array
  stored without gaps, Hermitian symmetry assumed on the way back; planning, alignment and threads are not modelled.
* Regridding: the map between the two grids is an arbitrary function (affine in some theorems), `sqrt` and the tolerance `5*epsilon` are parameters,
  images have two dimensions; threads, `verbose` and axes in a different order in the two headers are not modelled.
* Text conversions: `operator>>` and `operator<<` of the standard library in the classic locale are modelled by their contract (spaces, sign, digits, range);
  finite floating point numbers only for whole numbers printed with six digits.
* Cutouts: reading a rectangle of a FITS image is a contract (the pixels of this rectangle); the position of the source in each image is given (WCS and the correction of the distortion map give an arbitrary position).
* `mpfit`: exact arithmetic in an ordered field with a square root; no overflow other than NaN of the deviates; the thresholds `dwarf` and `giant` are parameters.
  A Jacobian with NaN counts as an overflow. Divisions by a norm that is NaN or zero are `diverge` (they are not reached with a positive `gtol`).
  C146 and C147 speak of the factorization of given derivatives; that the fit calls them with the derivatives at the current parameters is visible in the model, but not a theorem.
* Random positions: the generator is any sequence of numbers of [0,1]; probabilities are not modelled. Real numbers with exact sine, cosine and square root.
* Filters: `from_string`, `ascii::read_table` and `input_table` are parameters of C151 (their own properties are C143, C41 and C126); `print_filters` is not modelled.
  `pick_sources`: half sizes that are not negative, exact arithmetic.
* Cosmology: `integrate_func` is a parameter, without error in the theorems on monotonicity; real numbers; the conversion of the result to the type of the elements (`vec1f`) is not modelled.
* `psffit`: exact arithmetic; `max_error` is a parameter different from zero; the `assert` on dimensions is taken to stop the program. The overloads that fill in the position and the error are not modelled.
* `make_psf`: `from_string`, FITS files, exponential and square root are parameters; a width of zero (NaN) is not modelled; files whose numbers are not finite are not modelled.
* Lists of program arguments: the variables of one call share a type of values with one conversion each; warnings are not modelled except the list of unrecognized arguments. The shell of C162 is a small specification (blanks and double quotes; anything else that a shell interprets is excluded).
* Headers in files: cfitsio is a contract written at the top of `Io/HeaderFile` (append a card, list of cards, first keyword of a name, how strings are quoted); numeric keywords, comments and `remove_keyword` are not modelled.
* Symmetric systems, eigenvalues and singular values: the LAPACK drivers are hypotheses (contracts in `Math/LapackSym`), shown to be satisfiable by small examples; work arrays are not modelled.
* Means of stacks: the selection `cube(ids,_,_)` is modelled directly (its addressing is C06); `qstack_bootstrap` with a user function and `qstack_median_bootstrap` are not modelled.
* Vectorised functions: arguments are values, or vectors with their dimensions; overload resolution and the macros' text are not modelled, a function that takes by value is `byValue`.
* `minimize_bfgs`: the minimiser of GSL is an arbitrary state machine (`Optimize.Gsl`); nothing is proved on where it converges.
* `field_area_hull`: real numbers without rounding; `build_convex_hull` is C56; `field_area_h2d` is C179.
* `cure_header`: the regular expressions of the code are transcribed to `RegularExpression`; that `regcomp` gives them this meaning is trusted.
* Unit tests (`test/unit_test.hpp`): the macros are modelled, not the programs that use them; `print` is a list of messages.
* Progress bars: the text of the timings is a parameter; integer quotients stand for `floor` of `double` quotients.
* `ftable(...)` and structures: vectors of numbers; the reflection of the library (names of members in order) is the inductive type `S`.
* `field_area`: real numbers; the memory for the grid is not limited; the sorted indices that the hull is built on are a parameter.
* `prompt`: the input is a list of lines; the end of the input is the end of the list, and a loop that can no longer change anything is `diverge`.
* `fitstool`: cfitsio is the contract of `Io/HeaderFile` extended with deletion; long keywords, comments, units and protected keywords are not modelled; the text cfitsio writes for a floating point number is a parameter.
* `fitstool` columns: names are different; wildcards in names are not modelled; values are converted to `double` and back without loss in `transpose`.
* `pixfit-addflx`, `pixfit-addtdcst`: reading a number from a text is a parameter (`from_string` is C143); the values that are not finite are one value in C189.
* `read_maps` (pixfit): reading a number is a parameter; the images themselves are not read in the model.
* `qregrid`: only the output grid, on a flat sky with the same orientation; the pixels are those of `astro::regrid` (C58 ff.).
* `qmask`: reading numbers and sexagesimal angles, the conversion to pixels and the pixel size are parameters; the colour filter, which `qmask` does not use, is left out.
* `pixfit-gfit`: the adjustments of the catalogue, the groups, the measurements, the search in temperature, the f_PAH loop, the linear fit and the limits are modelled; the library of templates and the output are not. The fit is a parameter of the search; the inverse of the matrix is exact.
* `merge_elements`/`pick_elements`: a structure is the list of its members with type, dimension and content; the choice of the overload is read from the declarations, not checked by a compiler.
* The files of saved cross-matches are a map from names to contents; the name is an arbitrary function of what is hashed. Failures of reading and writing and concurrent programs are not modelled.
* `pixfit-extract`: the overlap of two sources is an arbitrary test of pairs; positions, PSF and images are not in `ExtractGroups`.
* `pixfit-extract`: in `ExtractFit` the stamps (translated PSF), the positions in pixels, the hull of the sources and the exact inverse are inputs, and the errors are finite; the approximate errors of `cell_approx` are in `ExtractCell`, with an exact inverse. In `ExtractPost` the normalised overlaps of the sources (the normal matrix) are inputs.
* `read_psf`: the beam smearing is not modelled. `pixfit-residual`: the translated PSF and the WCS are parameters.
* `qaper`: the regions are those of C192 and `circular_mask` is an input; `make_psf`, the errors of the fluxes, the files that are written and the filter data base are not modelled. `linfit_pack` is any least squares fit.
* `fits2ascii`: reading the FITS table; the `format` of the output. `findsrc`: the columns with the positions, the parsing of the arguments and the region file. `subsrc`: reading the files; `make_psf` is C119.
* `getgal`: reading the files and the arguments. A failure of `sex2deg` is ignored there; a key before the first image reads the last element of an empty vector; `name` is ignored for region files; `make_list` loses `psf` and `short_name`. `qstack2`: reading and writing the files.
* `fluxcube`: `logdisp` (`:376` tests `idbg.empty()` twice instead of `idd`), the smoothing by a beam, the cropping of the PSF, the statistics of the residual and the files.
* `psffit`: zero errors, the files and the errors of the fluxes. `qconvol`: the files and the pixel scale (`arcsec`).
* `refgen`: libclang (its declarations and their places are inputs), included files, the names of unnamed structures, the display of the lines with errors (`format_range`).
* `pixfit-prep`: `to_string` and `is_finite` are parameters; a shell is the function `shellWords`, which refuses whatever is more than words and double quotes.
* `read_sentry`: the values live in variables; copies elided by the compiler are not operations. The messages are numbers.
* `ascii::columns`: the cells of a line are read before the first is written; nested groups and formats are left out. Reading is that of C81, with the place of each cell in the line.
* `random_pdf`, `random_pdf_discrete`: the distributions of the standard library are those of libstdc++ 13 (`bits/random.tcc`), without rounding; the generator is a uniform number.
* `format_range` of `refgen`: the ranges that clang gives are parameters; colours, and lines that cannot be read, are left out.
* `extract` of `fitstool`: files are lists of HDUs, and whether CFITSIO can read, create and write is a parameter; names with the brackets of CFITSIO are left out. The exit status of the program is 0 whatever the function returns.
* `qxmatch2`: reading of columns and the match (C56, C57) are parameters; the options `nth`, `thread`, `brute` and `no_mirror` are only passed on, and left out.
* `imgtool`: reading of files, options and numbers, the convolution (C129) and the rotation (C227) are parameters. The files are written without the header of the input; headers are not in the model.
* `read_columns_info`: in `FitsColsInfo` only numbers, names and types (the dimensions are in `FitsTable`); names are those after `trim`, an error of CFITSIO is `abort`.
* `pretty_type`: which overloads a call sees follows the rules of C++ for names in templates (lookup at the definition, and in the namespaces of the argument), applied by hand; `typeid` is a parameter.
* `hash` with variables and temporaries: the text of a value by `to_string` is a parameter.
* `format::...`: the text of a value for a notation and a precision is a parameter; the stream is in a good state and stays so; of the flags of the stream, the notation of numbers and the adjustment to the left are modelled; the conversion from `uint_t` to `int` is modulo `2^32`; objects are values and vectors of values.
* `dbg_pretty_demangled`: the pass on template arguments only; the replacement of `unsigned long` before it and the removal of `ul` after it are not modelled. C255 was not mutation-tested.
* `pixfit-extract`: in `ExtractAper` and `ExtractRes` the translated apertures and PSFs are inputs, and the loops on the pixels of a box are written pixel by pixel; the columns of the output tables are not modelled.
* `qstack` reads pixels through cfitsio, by the contract of `fits_read_subset`.
* FITS tables: cfitsio is modelled by the contract of its functions on columns (section *cfitsio* of
  `Io/FitsTable`); conversions between numeric types are identities in the round trips. ASCII
  tables, members of structures and names with wildcards are not modelled.
* FITS images and HDUs: cfitsio is modelled by the contract of `fits_insert_img`, `fits_movabs_hdu`,
  `fits_delete_hdu`, `fits_resize_img`, `fits_write_img`, `fits_read_img` and `fits_read_subset` (section *cfitsio* of
  `Io/FitsImage.lean`). `fits_read_subset` out of `1 ≤ first ≤ last ≤ axis` is an undefined outcome.
  Conversions of pixels are a parameter; theorems assume those used to be exact. For errors (`Io/FitsStatus.lean`), the
  contract is that a function called with a status that is not zero does nothing.
* `qxmatch`: the distance proxy is an arbitrary function by brute force; the bucket search
  is modelled in linear coordinates with exact square roots; the spherical mode, the
  rounding of the bucket indices, the progress output and the final conversion of proxies
  to distances are not modelled.
* Random numbers: the generator is an arbitrary stream of draws in `[0,1)`, `std::shuffle` any
  permutation of its argument; uniformity itself is a property of the generator and is not stated.
* C++ exceptions and `vif_check` failures are both `abort`.
* Memory reclamation is modelled only in the lock-free queue (C47).
