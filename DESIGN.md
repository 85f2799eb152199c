# Formal model of vulture (FDTD solver) in Lean 4

## 1. Layout

* `properties.jsonl` – the English properties C01...
* `lean/Verif/Model/*.lean` – the model: small total functions, each citing file and lines in `/repo`.
* `lean/Verif/Spec/*.lean` – short specifications that do not use the model's helpers (where one is needed).
* `lean/Verif/Lemmas/*.lean` – helper lemmas.
* `lean/Verif/Props/Cxx*.lean` – one file per property (or family): the property theorems with non-vacuity examples beside them.
* `MANIFEST.json` – property -> theorems; `seeded/LOG.jsonl` – the mutation log.

## 2. Modelling conventions

* `real` (C `float`) becomes an arbitrary field `K` (linear-algebra facts), `ℚ` (computable witnesses) or `ℝ` (order, trigonometry).
  **Rounding, overflow, NaN and infinities of floating point are not modelled**; statements are about exact arithmetic.
* `int` indices are `Int`, `unsigned long` counters are `Nat` except where wrap-around is the point
  (C35: `BitVec 64`), where the machine word is modelled.
* Arrays are total functions of integer indices; memory safety is a separate statement about the index sets actually touched.
* In-place loops are modelled as folds of single-element writes in the C order, and *then* proved equal to the pointwise formula.
* Parsers are modelled after tokenisation: `sscanf` results are arguments (fields plus `numScanned`). `strtol` is modelled for base 2.
* UB / `assert(0)` / process exit are distinct outcomes of the model (`Outcome.ub`, `.abort`, `.error`), not totalised away.
* When the code violates an English property the negation is proved with a concrete witness, and the part that does hold is proved as `..._partial`.

## 3. Plan per property

| id | modelled | proof |
|----|----------|-------|
| C01 | card tables and `readMesh` state machine over lists of cards | invariant by induction over the card list |
| C02 | same machine, with UB outcome past EN | negation with witness; partial for files reaching EN |
| C03 | `strtrim`, `removeComments`, the line classifier on `List Char` | induction on strings / list of lines |
| C04 | box predicates and the card validators | negation (z axis never checked); partial for x,y |
| C05 | `bboxType`, `bboxDirection`, `getFaceOfBoundingBox`, `bboxIsElemental` | case analysis; negation for elemental |
| C06 | `strtol` base 2 on `List Char`, masks as `Nat`/`BitVec` | induction on digit strings |
| C07 | `setGridExtents`, `offsetBoundingBox` | linear integer arithmetic |
| C08 | field limits and stencils as index sets | omega over all sizes |
| C09 | `setPmlLimits`, `initFieldArrayLimits`, `setFieldLimits` | partition by case analysis on coordinates |
| C10 | in-place write folds | permutation induction on lists of distinct locations |
| C11,C12 | the step as a composition of updates over a module | linearity by composition, induction on steps |
| C13 | medium coefficients + E update | invariant over steps; negation for user-named PEC |
| C14 | `calcCoeffFromParam` | field_simp/ring, order lemmas |
| C15 | curl update with primal/dual edge arrays | algebraic identity div curl = 0 + induction |
| C16 | update dependence cones | induction on steps |
| C17 | curl operators on finite boxes | summation by parts, quadratic form bound |
| C18 | `initCellEdges`, `nodeInPhysicalUnits` | telescoping sums |
| C19 | `setMediumOnGrid`, block list fold | induction over the block list |
| C20 | registries as state machines | invariant over histories |
| C21 | ghost updates | case analysis on faces |
| C22 | Mur coefficient and update | algebra, induction |
| C23 | PML profile and update | algebra, order |
| C24 | Debye update | algebra over ℂ |
| C25 | recursive convolution | induction on input, integration identity |
| C26 | 2x2 S->Z and passivity check | algebra; negation with witness |
| C27 | source tables, normalisation, update | algebra |
| C28 | waveform formulas over ℝ | trigonometric identities, calculus |
| C29 | spline evaluation with cache | invariant over call histories, algebra |
| C30 | incident vectors over ℝ | trigonometric identities, sign analysis |
| C31 | TF/SF corrections in 3-D | induction over steps; negation for lossy media |
| C32 | observer window / stride | counting lemmas |
| C33 | DFT accumulator | induction over steps |
| C34 | impulse.dat writer/reader | round trip, counting; negation of header count |
| C35 | `propagate` with 64-bit counters | induction; negation for NT 0 |
| C36 | gmsh numbering | arithmetic, injectivity |
| C37 | `allocArray` layout | induction over dimensions |
| C38 | `message`, `parseOption` | case analysis |
| C39 | the whole step; renaming of axes of state, coefficients and items | the turned step program is equivalent to the step program of the turned model, loop by loop; negations for sheets and lossy waves |
| C40 | `initPmlMaterialArrays` copies | exact value of every copied coefficient; negation for low sides |
| C41 | `setGridType` | order lemmas; negation with witness |
| C42 | rotation and flip matrices of a sheet | isometry over all angles |
| C43 | `initSibcSurfaces` face map and adjacency flags | exact value of each flag; negations with witnesses |
| C44 | card validators against written rules (`Spec/CardRules`) | acceptance iff rules |
| C45, C46 | closed box with soft currents | discrete Lorentz reaction, summation by parts, induction on steps |
| C47 | `Model/Deck`: cards -> run | invariant over card lists; composition of C04, C07, C08, C20 |
| C48 | drive values as functions of the waveform | shift by induction on steps; exact times; negations |
| C49 | `Spec/Images`: unbounded space, images | symmetric space has symmetric runs; box agrees with space step by step; continuation by folding; symmetry plane |
| C50 | `Model/Reader`: m/tdfdReadImpulseDat3D.m on the bytes of `impulse.dat` | positions of blocks by list cutting; composed with C34/C32 |
| C51 | `Model/PostProc`: m/xfreq.m, m/tdfdFFT.m, m/tdfdReadExciteDat.m | `fft` bins are the transform of C33 at the default frequencies; composed with C32, C33, C50 |
| C52 | the whole step; reflection of state, coefficients and items (`Spec/Mirror`) | the step program of the reflected model does the reflected assignments, phase by phase (independent iterations may be reordered; opposite faces exchanged); negations for one cell between Mur faces and for sheets |
| C53 | `Model/ProcessDat`: the text of process.dat as written by the code and as scanned by the companion scripts | decimal printing and scanning are inverse; fields followed through the text by induction over the observers; composed with C50 |
| C54 | `Model/Setup`: the whole set-up from the cards to coefficients and driving values, with the prior content of every allocated array as a parameter | two runs that differ in that parameter have equal coefficients wherever the step reads (case r = 1 of C55), fields by C08/C47 (all accesses allocated) and induction; negation for sheets at a side of the grid |
| C55 | `Model/Setup`; conversion of units in `Spec/Scale` | every coefficient and driving value is homogeneous of a degree in the unit (`Lemmas/Scale*`), every assignment of the step is homogeneous (`Lemmas/Degree`), induction over steps; negation for the absolute tolerance of the mesh type |
| C56 | `Model/Setup`; a cavity as the cards describe it in `Spec/Cavity` | the arrays computed from such a file satisfy the hypotheses of C17/C45 (`Lemmas/CavitySetup`); bounded response to a unit pulse in one step, superposition over steps (`Lemmas/Impulse`), summability of the pulse waveforms; conservation from C46 with zero heat |
| C57 | `Model/Setup`, two files that differ in one `EX` card | both runs have the same arrays; the drive value times the dual area of the edge is the current of the card; C45.exchange |
| C58 | `Model/Setup`, three files | degree in the amplitude of every driven value and coefficient; induction on steps with C11 |
| C59 | `Model/Sim`, `Model/Setup`: sheets | what the block of each square adds to a sample, summed over the sheet; C09/C10 for the rest of the step; a computed example of a metal wall where a sheet ends |
| C60 | `Model/Gnuplot`: records of points, script lines | a segment is drawn iff it is an edge of the box, case by class; files by induction over the cards (C47); the script over all combinations of items |
| C61 | `Model/Output`: the observers made from the stored cards, the run of Model/Run on the simulation set up from the file, the files written | the observer list is the `OP` cards in order followed by two per `WF` card (induction over the cards); then C32, C33, C34 on that list, C47 for placement, C50 for the reader, C54 for reproducibility |
| C62 | `Model/Scan` (sscanf conversions on characters), `Model/MeshFile` (card parsers from text, fgets, the reading loop over characters); `Spec/Page` says how numbers, names, cards and lines are written | each conversion reads every spelling of its value and stops where the field ends (induction over digits); the fields of a card by induction over the format; the file by induction over its layout, with C01 for the sequence and C03 for padding and comments |
| C63 | `MeshFile.experiment`: from the cards found to the input of a run | a card that may occur once is found by any search (multiplicities of C01); the outer faces by a fold over the cards for one face at a time; the items card by card |
| C64 | `Setup.setup`: cards to coefficients; `Spec/Material` says in mesh coordinates what each sample is made of (priority of the kinds of cards, last card wins, masks) and what difference equations a material has | the fills of each kind are a `filterMap` over the cards (induction over the file), last match of C19; names by C47/C20; resistance from telescoping sums over the box; sides by case analysis; metal by C13's invariant |
| C65 | file to sheet law: `Setup.sheetData`, `sheetMat`, `hFactor`, `sheetFilter` with `Spec/SheetCard` (frame, ports, mean field beside a square, cards) | the n-th sheet card is the n-th sheet of the run (filterMap over the file); currents and voltages by matrix algebra with cos²+sin²=1 from C25's convolution theorem for whole runs; adjacency from C43; power from C26 |
| C66 | text of data files: `Model/DataFile` (`count`, `table`, `waveText`, `rows`, `debyeText`, `entries`, `sheetText`, `world`) with `Spec/DataFile` (fields of each format, layout) | scanner lemmas of C62 step through the stream by induction on the rows; `feof` and unchecked `fscanf` modelled by what is left of the stream; C29 for the spline, C63 for the cards. False parts (order of pole and residue in the manual, incomplete sheet files, half rows) are proved as such |
| C67 | `Model/Output`, `Model/Deck`; `Spec/Probes` (cards that agree apart from `OP`) | reading commutes with exchanging the list of observers (induction over the cards), so the runs agree except for that list; contents of each file from C61, made exact for spectra; ending of the run by induction over the steps |
| C68 | `Model/Output` with two numbers of steps; `Spec/Probes` (`Continues`) | contents of each file as a map over the recorded steps (C61); the recorded steps of the shorter run are a prefix |
| C69 | `Model/Setup`, `Model/Deck` (`drive`); `Spec/Response` (other waveforms and delays, `supplied`) | reading commutes with changing delays; set-up is independent of waveforms and delays; decomposition into impulse responses (Lemmas/Impulse) applied to the finitely many inputs |
| C70 | as C69; `Spec/Response` (`louder`) | driving values linear in the waveforms, superposition C11; transforms and quotient scale |
| C71 | as C64; `Spec/Beam` (line wave, endless line, polarisation, empty box) | C31 separation with the coefficients of C64 on the box only; auxiliary line solved by induction; end of line unreached for 2·len steps |
| C72 | as C64; `Spec/Maxwell` (rotations with the lengths of the mesh lines, current densities of the source cards, conditions on a sample) | value of a sample after one step by footprints of the other objects; source terms as a sum over the cards; coefficients from C64; dispersive samples from C24 |
| C73 | as C72; `Spec/Locality` (samples that two files describe alike, enclosed parts) | induction over the steps with the one-step equations of C72 and the coefficients of C64 |
| C74 | The complete run of two mesh files whose cards are permuted across kinds (`Spec/Reorder.lean`: `SameByKind`). | The final parser state is shown to depend, except for the order of the look-up tables, only on the filtered lists (`lists_same`); the set-up and every step read tables only by look-up (`run_renamed`); hence fields and files coincide (`fields_same`, `probe_same`, `output_same`). Acceptance after moving declarations first is by induction over the cards with a simulation relation (`declarations_first`). |
| C75 | The fields of the complete run in mesh coordinates (C72); loops, charges and fluxes in the lengths and materials of the mesh file (`Spec/Circuit.lean`). | C72's equations times the areas of the edges and squares; the divergence of loops vanishes identically; induction over the steps for charges and fluxes; telescoping sums (discrete Stokes) for rectangles. |
| C76 | The fields of the complete run in mesh coordinates (C72); what a card prescribes or impresses, from its tag, size, delay and resistance (`Spec/Held.lean`). | The source loop of a step is a fold over the cards of the file, one after another; a hard source cuts the fold, soft sources sum. C64's material coefficients turn the rest into Ampere's and Faraday's law; telescoping sum for the voltage. |
| C77 | The step as a list of loops with a mark on those with `#pragma omp parallel for` (`Model/Threads.lean`); memory accesses of iterations interleaved at will, values computed by an arbitrary local function (`Spec/Threads.lean`). | C10's syntactic independence of iterations, extended to the plane wave loops; invariant over the prefixes of a schedule; induction over the loops and steps. C16's syntactic dependence cones for locality. |
| C78 | `loadtxt` (dropping of axes of length one), broadcasting, `allclose` and the branches of the script (`Model/PyDiff.lean`); tables, extents and agreement (`Spec/Compare.lean`). | Case analysis on the shapes. False as stated: tables of different extents may pass (negations proved); proved for equal extents. |
| C79 | Cards and stored lists with new names (`Spec/Rename.lean`); set-up and output as in `Model/Deck.lean`, `Model/Setup.lean`, `Model/Output.lean`. | Simulation: the parser commutes with renaming card by card, hence the whole section does; set-up and the driving values do not look at names; files are compared one by one. |
| C80 | Sums over the samples strictly inside a box and over the edges on its sides, with the lengths of the file (`Spec/Poynting.lean`); the run as in C72. | C72's difference equations multiplied by the mean field, summation by parts along each axis (induction over the length of a line), induction over steps. |
| C81 | The run as in C72; places outside the mesh by doubled sample positions (`Spec/Ghosts.lean`), the law of leaving waves as a centred difference equation (`Spec/Sides.lean`). | C21 (ghost samples at all times), C22 (Mur update), C09 (samples never advanced), C64 (what sides are made of) carried over to mesh coordinates; end planes by induction over steps with C72. |
| C82 | The run of C56 and, beside it, an arbitrary sequence of memories; error of a step and accumulated error are differences (`Spec/Rounding.lean`). | The accumulated error obeys the undriven step plus the error of the step (linearity, C11/C17.silent_step); the root of the conserved form of C17 is a seminorm on field-free states (discriminant), does not grow in a step and is near the stored energy; induction over steps. |
| C83 | The run of the whole program model; the layers, profiles and the continued material are described in mesh coordinates in `Spec/Layers.lean`. | C23 (grading arrays and layer updates) and C40 (copied media) lifted to the run of a file: every outside sample is in exactly one region, nothing else writes it, the stored grading is the profile at its place; the intermediate arrays serve as D, P and B. Reflection by integrating the profile. |
| C84 | The run of the whole program model; line models, what two of them have in common and the line equations are described in mesh coordinates in `Spec/Plates.lean`. | Induction over the steps on top of C72/C76 (mesh), C81 (ghosts, Mur ends) and C83 (layers): dark components stay dark because their curls vanish (ghost planes continue uniform fields), the layer equations determine the new values uniquely, so equal data give equal fields; handedness by cases on the axes. |
| C85 | The run of the whole program model; what it means that one model repeats another is described in mesh coordinates in `Spec/Repeat.lean`. | Induction over the steps for all pairs of corresponding samples: the curls agree (ghost planes continue the field periodically), the update equations of mesh (C72/C76/C84), layers (C83) and Mur sides (C81) determine the new values from equal data. The converse (`uneven_seam`) from Ampere's law at both ends. |
| C86 | The run of the whole program model; plated models and equal cross sections are described in mesh coordinates in `Spec/Repeat.lean`. | Induction over the steps: dark components have zero curl and stay dark, living components see the same curls at all heights because the ghost planes continue them evenly; then the same induction for pairs of models. |
| C87 | The run of the whole program model; energy, heat and work of the mesh in mesh coordinates in `Spec/Closed.lean`. | Summation by parts along each axis with the ghost planes as boundary terms (magnetic and periodic sides contribute nothing, electric fields vanish in conducting ones), the laws of C72 and C80 for the single samples; the Courant bound from the operator norm of the one-dimensional differences; the root of the conserved form grows by at most the (summable) currents. |
| C88 | The runs of the whole program model on both files; reaction and single-edge cards in mesh coordinates in `Spec/Exchange.lean`. | The laws of the samples of one run tested with the fields of the other; summation by parts over the mesh with the ghosts as boundary terms (C87); convolution over the steps, then cancellation of the waveform in the ring of power series. |
| C89 | `Model/Scripts`: writeLines and the five scripts; composed with the text scanners of C53 and the waveforms of C28. | Round trip by induction on the lines; the pulses by comparing formulas after the defaults; decibels by the laws of the logarithm. False for `tdfdCompactPulse` before the delay (no lower cut-off): proved. |
| C90 | `Spec/Passive`: passive poles by their absorption spectrum; relaxing edges; closed models. The laws of C72 and the shell of C87. | A quadratic function of the state of a pole (one for real, one for complex poles, from residue and pole) whose change plus a non-negative loss is the work of the trapezoidal rule: an exact identity. Summed over poles and edges it joins the form of C87. |
| C91 | `Spec/Taking`: boxes with relaxing edges. The flow through the sides, work and heat are those of `Spec/Poynting` (C80), the media those of `Spec/Passive` (C90). | The identity of C90 for every edge, summed over the box, with the summation by parts of C80; induction over the steps. |
| C92 | `Spec/Dispersive`: dispersive edges (ranges, half plane) and closed models; reaction and currents on single edges as in `Spec/Exchange` (C88). | Displacement, conduction and polarisation current of an edge are a causal answer to its field with a kernel that depends on the medium only (state recursion of the poles, C72/C90); such answers are exchanged in a convolution (product of power series). The rest is C88, generalised to any shell. |
| C93 | `Spec/Ringdown`: fading currents (absolutely summable in the steps), conducting models, limits by `Tendsto`; closed models as in C87 and C90. | The energy bounds of C87/C90 make the sum of the heat finite, so the step means of the field die out. In a bounded run the two updates and the Courant bound of the curl turn the decay of the means into the decay of the field itself: ring at the Nyquist rate is excluded since cn < 1. |
| C94 | the requests the item lists make of src/gmsh.c, in order, with their group names, and the three sections gmshWrite prints (Model/Msh.lean), on top of the model of gmshAddEntity of C36. Specification (Spec/Msh.lean): parts of a box and their corners in Gmsh's order, what a mesh file asks to be shown, when an element draws a part. | cards are matched with requests by induction over the deck (C94_Shown), group dimensions never conflict because names carry the type in their prefix and source names are unique, the export loop by induction over the requests (C94_Msh); the two kinds of accepted files that cannot be exported are proved as theorems with concrete examples. |
| C95 | `Model/Gvulture` (`parseOption`, `gnuplotMesh`, `main`) on top of `Model/Gnuplot`, `Model/Msh` and `Deck.File.stored`; `Spec/Command` lists the options with letters and words and, file by file, the segments a mesh file asks for | the option loop by induction over the arguments; the files by lifting the box pictures of C60 to the cards of an accepted file; composition with C94 for Gmsh; counterexamples for azimuth 360, zero distance and files without observers |
| C96 | `Model/Dump` (`decodeAlphaBeta`, `decodeGamma`, `line`, `file`, `dump`) on the arrays of `Model/Setup`; `Spec/Dump` says at which line and column a mesh sample is found and what distance from vacuum and metal the decoder measures | indices of lists built by nested loops; the coefficients of every sample from C64; bounds of the time step from C18 |
| C97 | `Model/Vulture` (`Parsed`: the checks made while the mesh is read; `After`, `Ends`: how `main` can end) on `Model/Message`, `MeshFile`, `Setup`, `Output`, `Dump`; `Spec/Solver` says which words are which options and what a file without results is | recursion over the row of options; the parsers do not look at the data of an impedance sheet (erasing it commutes with reading); C61 for the end of the loop and the uniqueness of its files |
| C98 | Spec/Later: `delayed X T` is the input with `T` added to every delay (by `delayCard` of C48), `stepLines`/`postponed` the lines of a file and the shifted numbers, `delayedSpectrum` the rows of a transfer function turned back. | Props/C98_Later: the setup of the delayed input differs from that of the original in the delays only (`run_later`); induction over the steps with `C48.drive_later` and `C12.quiet` gives the fields; `C61.probe_file` and `C67.transfer_exact` lift it to the files. `builtin_causal` and `table_causal` show which waveforms meet the hypothesis. The Gaussian types do not: they are never zero, and a run cuts them off at its first step (compare `C28.narrow_gaussian_truncated`), so a longer delay changes what is cut off. |
| C99 | Spec/Cause: `AgreeUntil` for two sets of waveforms, `SameUntil` for the lines of two files. | Props/C99_Cause: the state before step n is a function of the driving values of earlier steps (induction, `state_before`), these of the waveforms up to half a step before step n (`drive_before`); `C61.probe_file` for the files. `table_looks_ahead` computes the spline of a table of three entries: its value between the first two depends on the third. |
| C100 | Spec/Request: `SameAtFrequencies` for two files, `linesIn` for the lines in a window. | Props/C100_Request: every file of a run has known contents (C61, C67, `C68.impulse_counted`), in which the list of frequencies occurs only as the frequency of each row; the window only as a filter on the steps. |
| C101 | Spec/FarSide: the columns of a file, the components that lie half way between nodes, a card that differs in one node. | Props/C101_FarSide: the node's samples are `HalfOutside` the mesh; C81 says what they are before every step; `C61.probe_file` gives the columns. Props/C101_Absorbing: beyond a MUR side no update writes, except ghosts of the other sides, which copy from there (`Keeps`). Props/C101_Spectra: the transform is linear. |

## 4. Trusted base

* Lean 4.33.0 kernel. No axiom is added; every theorem depends on at most `propext`, `Classical.choice` and `Quot.sound`
  (checked by vcheck). No compiled evaluation is trusted: finite tables are closed with `decide` / `decide +kernel`, which the kernel
  evaluates.
* Mathlib definitions used in statements (`ℝ`, `ℂ`, `Finset.sum`, `Real.sin`, `Real.exp`, `deriv`, ...).
* The faithfulness of the hand translation from the C lines cited at each definition. `seeded/LOG.jsonl` records how the theorems
  react when the translation is changed the way a bug would change the program.

## 5. What is modelled

| source | model | not modelled |
|--------|-------|--------------|
| vulture.c, gvulture.c | option parsing (both commands), order of set-up and shut-down calls, the set-up as a whole (`Model/Setup`) | file handles, banner texts |
| mesh.c | card tables, section state machine, line reading, comments, trimming, the loop over the characters of the file | – |
| `sscanf`, `fgets` of the C library | the conversions the parsers use, on characters (`Model/Scan`, `Model/MeshFile`) | overflow of `int`, hexadecimal numbers, `inf`, `nan` |
| bounding_box.c/h | all predicates, classification, faces, offsets | – |
| util.c | `isEqualRel`, `degrees2radians`, `strtol` base 2 | – |
| simulation.c | CN/NT cards, `propagate` order, machine-word counters | timing reports |
| grid.c | cards, extents, limits, allocation, cell edges, media arrays, E/H updates, grid type, numerical phase velocity, node and sample positions, the dump of the media arrays | log output; scaled fields and indexed media in the dump |
| pml.c | limits, profiles, coefficients, media copy, allocation, updates | log output |
| mur.c | coefficients and updates (values saved from the last step) | – |
| surface.c | BR/TB cards, layers, external and internal surfaces, ghost updates | – |
| boundary.c, medium.c, block.c, line.c, wire.c | cards, registries, coefficients, fills, Debye parameters | wires have no update in the code |
| debye.c | initialisation, updates | – |
| sibc.c | matrices, adjacency flags, E/H updates, filters, S->Z, passivity test | – (the text reader of the pole/residue file is in `Model/DataFile`) |
| filter.c | recursive convolution | – |
| source.c | tables, tags, normalisation, updates, lumped elements | – |
| planewave.c | card, incident vectors, analytic field, auxiliary grid, all face corrections | – |
| waveform.c, spline | all waveforms, external tables with the cached interval | – (reading of the table file is in `Model/DataFile`) |
| observer.c | cards, windows, strides, time and frequency outputs, impulse.dat bytes, the text of process.dat, the set of files of a run and their contents (C61) | the digits `%g`/`%e` print (a parameter) |
| m/xfreq.m, m/tdfdFFT.m, m/tdfdReadExciteDat.m (type 8) | all | reading and writing of the text files |
| m/tdfdReadImpulseDat3D.m | positions, seeks, reshapes, assertions, axes and times | – |
| m/tdfdReadProcessDat.m, m/tdfdWriteProcessDat.m | the text, field by field | the digits `%g` prints (a parameter) |
| grid.c `writeLines`, m/tdfdReadLines.m, m/tdfdGaussianPulse.m, m/tdfdCompactPulse.m, m/db10.m, m/db20.m | all | the digits `%e` prints (a parameter); m/tdfdReadFrequencyDat0D.m and 3D.m read files the program does not write and are left out |
| util/pydiff.py | `loadtxt` after splitting into numbers, broadcasting, the decision | spelling of numbers, missing files |
| gnuplot.c and its callers | points and records of every file, arrows, the plot command | number formatting, styles and labels |
| gmsh.c | node/element numbering, entities, groups, the sections written | number formatting |
| alloc_array.c | block layout, pointer tables, addresses | `malloc` itself, 64-bit overflow of the size |
| message.c | severity, exit, verbosity | text |
| timer.c, memory.c, physical.c, log | constants and the estimate filter only | wall-clock times |

Floating-point rounding is not modelled: the program computes in single precision, the model in real numbers (C82 bounds what rounding can do in cavities). OpenMP is covered by C10: the iterations of each parallel loop are shown to be
independent, so that every interleaving gives the result of the sequential loop.

## 6. Findings

Where the code violates a property its negation is proved on the model; the theorem is named in brackets.

* End of file is not checked: every truncation of a file is accepted; a card after EN indexes a table out of range [C02.truncated_accepted, C02.card_after_EN_ub].
* A white-space-only line reads before its buffer; a comment line longer than the buffer has its tail parsed as cards [C03.blank_line_ub, C03.long_comment_tail_is_parsed].
* The z order of boxes is never checked (`bboxIsNormal` compares zlo with itself); lumped sources accept long lines [C04.boxes_not_validated, C04.lumped_source_accepts_long_line].
* `bboxIsElemental` accepts every box [C05.bboxIsElemental_accepts_everything].
* An analytic plane wave with an active face on the low side of the mesh reads the mesh line before the first [C08.low_face_reads_line_before_first]; a Debye block with zhi<zlo asks for arrays of negative extent [C08.swapped_block_negative_size].
* The edges shared by two Mur faces are never updated [C09.mur_edge_never_advanced].
* A user-declared `MT name PEC` is free space [C13.named_pec_is_free_space]; a conducting plate on a Mur plane carries field [C13.plate_on_mur_carries_field].
* Corrections beside impedance sheets carry information 1.5 cells per step [C16.sheets_are_faster].
* The order of mesh lines is never checked [C18.unordered_lines_accepted]; a mesh whose cells shrink is called uniform [C18.shrinking_called_uniform].
* A Debye block covered by a later block still acts [C19.covered_debye_still_acts].
* Placeholder media of lumped sources are named without a check [C20.placeholder_clash].
* A nominal PML reflection above one amplifies [C23.reflection_above_one_amplifies]; other PML parameters are not validated either (order, n_eff).
* Poles of a Debye card are not checked for stability [C24.card_pole_unchecked]; sources acting on a Debye sample drive its current one step late.
* The passivity test checks the signs of entries: accepts an active sheet, rejects a passive one [C26.active_accepted, C26.passive_rejected].
* An ideal voltage source delivers a quarter of its voltage [C27.ideal_source_quarter]; a tag across the line drives nothing [C27.misoriented_drives_nothing].
* Differentiated compact pulse, Ricker sign, narrow Gaussian, negative delay differ from the manual [C28.narrow_gaussian_truncated, C28.negative_delay_replaced]; an external table not ending at zero jumps [C29.jump_at_end].
* An azimuth of 360 degrees is accepted and aborts [C30.azimuth_360_accepted_then_aborts].
* Plane-wave corrections apply ALPHA twice in lossy media [C31.face_value]; no numerical phase velocity exists for Courant numbers up to 3/20 [C31.no_wave_for_small_steps].
* A zero observer step hangs the run [C32.zero_step_hangs]; the state after the last step is not recorded.
* The field transform is windowed, the reference transform is not [C33.window_mismatch]; one frequency divides by zero; magnetic samples carry the time of electric ones.
* impulse.dat announces windows that reach beyond the run in full, and wraps at 2^32 [C34.header_overstates, C34.header_wraps].
* NT 0 never ends, CN 0 gives a zero time step, a negative CN is replaced [C35.zero_steps_never_end, C35.courant_zero_accepted, C35.courant_used].
* A plane wave on a flat box aborts the geometry export [C36.flat_plane_wave_aborts].
* `-n` as last argument passes NULL to strtod; a missing mesh name prints the usage and goes on [C38.missing_value, C38.no_mesh_goes_on].
* Impedance sheets prefer an axis; so do plane waves in lossy media [C39.sheets_prefer_an_axis, C39.lossy_waves_prefer_an_axis].
* With one cell between two Mur faces the low side is updated before the high side and the result is not symmetric; impedance sheets normal to y prefer a side [C52.one_cell_between_mur_faces, C52.sheets_prefer_a_side].
* The adjacency flags of a sheet that reaches a wall are read but never written: the factor of a term is what memory held [C54.memory_matters_at_walls].
* The tolerance that tells cubic meshes from others is an absolute length (1e-5 m): every mesh, small enough, is taken for cubic and its plane waves are computed on an auxiliary grid of the first cell's size [C55.tolerance_is_a_length, C55.small_is_cubic].
* The manual's PML conductivities have the effective index in the numerator, the program has it in the denominator; only the latter gives the stated reflection [C83.manual_differs, C83.reflection].
* Low-side absorbing layers copy half-cell media from the second cell [C40.low_layer_takes_second_cell].
* Sheet adjacency flags: one looks a cell too far, those at the outer boundary are never written, updates beyond an edge use the flags of the opposite edge [C43.fourth_flag_misses, C43.outer_edge_unwritten, C43.flags_of_opposite_edge].
* Soft currents and the analytic incident wave act half a time step ahead of the other excitations [C48.incident_half_step_ahead, C48.current_half_step_ahead].
* Where an impedance sheet ends on a metal wall, half of the field of its last square acts on the edge in the wall: the magnetic field through the wall becomes non-zero [C59.metal_wall_leaks].
* gnuplot export: a source without extent along its field gets an arrow that ends two mesh lines further, in physical units read from behind the array when it lies near the high side, and its stored box is changed [C60.flat_source_reads_outside]; without observers the plot command of the script runs on into `set output` [C60.no_observers_runs_on]; without external surfaces the comment sign hides everything but the mesh lines [C60.no_external_hides].
* A binary observer with stride 0 is accepted and the run never ends; a frequency or binary observer without any `WF` card is accepted and then uses a waveform that does not exist [C61.zero_stride_never_ends, C61.no_waveform_accepted].
* An `NT` number in scientific notation loses its exponent (`NT 1e6` runs one step), a negative one wraps; numbers that are none are taken as left out, names over 31 characters split in two [C62.count_cut and the cases beside it]. After the numbers of an `XL`, `YL` or `ZL` card the rest of their line is read as a card line: if it is white space, that is the blank line of C03 [C62.newline_after_lines].
* A `BE` card without a `BR` card before it has no effect on the outer faces [C63.face_default]; a `FREE_SPACE` or `SIBC` boundary named after an outer face stops the program with `assert( 0 )` [C63.face_sheet_stops].
* The order of the cards does not decide between kinds: a block card written after a wire or surface does not cover it, and a lumped source replaces the metal of an outer wall it touches [C64.every_sample].
* The companion reader fails on a file whose window reaches beyond the run, and counts times from the start of the window [C50.overstated_unreadable, C50.times_from_window].
* With a window shorter than the run, `xfreq` stops and the transform of the binary files divides by the waveform of other steps [C51.xfreq_needs_whole_run, C51.window_shifts_phase].

Seen in the text but outside the model: `message("... %s", type)` with an int argument in parseMT/parseWF; `yfReadPoleResidue` does not
check fopen; the CMake option `USE_SCALED_FIELDS` and the macro `USE_SCALE_FIELDS` differ; `strncat` with the size of a pointer in
alloc_array.c; `deallocAuxGrid` leaks two arrays; a frequency-domain observer without a waveform indexes out of bounds.
* The comparison tool of the test suite exits with success for tables of different extents that can be broadcast, takes a row for a column, and never compares numbers up to 5e-3 [C78.extents_not_checked, C78.row_for_column, C78.small_not_compared].
* The script for the compact pulse does not cut it off before the delay; the line reader takes a file cut short for a smaller mesh; the decibel scripts give the least value for every negative amplitude [C89.compact_differs, C89.cut_short, C89.db_negative].
* Two kinds of accepted mesh files cannot be exported for Gmsh: a plane wave in a flat box ends in an assertion, an observer with a distance of zero in an endless loop [C94.flat_wave_fails, C94.zero_step_fails, C94.cannot_export].
* C95: `parseOption` of gvulture (src/gvulture.c:121-175) compares prefixes, so `-gv` is `-g` and `-vg` is `-v`; a call without a
  mesh file prints the usage and then goes on to open a file with an empty name. A plane wave from an azimuth of exactly 360
  degrees passes `parsePW` and stops the export with `assert( 0 )` in `calcIncidentFieldVectors`.
* C96: the dump of the grid (src/grid.c:1717-1724) compares the magnetic coefficient with that of vacuum within an absolute 1e-6;
  with a time step of at most 1.25 ps the coefficient itself is smaller, so magnetic matter is never shown [C96.magnetic_hidden, C96.fine_meshes].
* C97: `vulture -p` opens the output files of the run for writing and closes them without samples, so checking a set-up in the
  directory of finished results destroys them (src/observer.c:455-520; src/vulture.c:172-176) [C97.preprocess_empties]; `vulture -m`
  exits with status 0 on meshes the run rejects, such as one with a sheet that supplies power [C97.read_not_enough].
* C96: the labels `y=` and `z=` in the dump of the grid (src/grid.c:1689-1691) count cells from 1 at the outer face of the absorbing
  layers, not mesh lines, so they differ from the numbers in the mesh file by the layers and one (`C96.labelled`).
* C98: the Gaussian waveforms are not zero before time zero, so a longer delay changes more than the time of the results.
* C99: a tabulated waveform looks ahead: its spline (src/waveform.c:662-744) runs through all entries, so what a source does before
  an entry depends on it (`C99.table_looks_ahead`).
* C101: a probe on the last node of an axis records three of its six components half a cell beyond the side, where they are images
  of the last cell (`C101.conducting`, `C101.magnetic`, `C101.periodic`); on a MUR side they are written by nothing and stay zero (`C101.absorbing`).
