{"id": "C01", "title": "Accepted mesh files are well-sequenced", "statement": "If the reader gets through a mesh file without an error, then the cards it processed come in section order (header VM, control, model, execution), no once-only card occurs twice, every card lies in a section that admits it, and, once the EN card has been read, every compulsory card (VM, DM, GS, GE, NT, EN), at least one excitation (EX or PW) and exactly one way of giving the mesh lines (MS, or XL+YL+ZL) have been seen.", "quantifier": "every finite sequence of input lines / cards", "why_tests_cant": "the set of card sequences is infinite and the acceptor's state (27 counters plus a section index) cannot be enumerated by example meshes", "anchors": ["src/mesh.c:readMesh", "src/mesh.c:isValidInSection", "src/mesh.c:getCardType", "src/vulture.c:main"]}
{"id": "C02", "title": "A truncated mesh file is rejected", "statement": "A mesh file that ends before its EN card (or before GE, or that is empty) is reported as an error, and nothing that follows EN can corrupt the reader.", "quantifier": "every finite sequence of input lines", "why_tests_cant": "needs every truncation point of every valid file, and every continuation after EN", "anchors": ["src/mesh.c:readMesh", "src/mesh.c:isValidInSection"]}
{"id": "C03", "title": "Comments, blank lines and padding are inert", "statement": "Deleting comments, blank lines, and leading or trailing white space from any mesh file changes neither the sequence of cards recognised nor their parameter text.", "quantifier": "every input line, every sequence of lines", "why_tests_cant": "quantifies over every string", "anchors": ["src/mesh.c:strtrim", "src/mesh.c:removeComments", "src/mesh.c:readMesh"]}
{"id": "C04", "title": "Only normal bounding boxes inside the mesh are accepted", "statement": "Every card that takes a bounding box (MB, TB, TW, EX, OP, PW) is accepted only if the box has lo<=hi in each of x, y and z and lies inside the mesh.", "quantifier": "every six integers and every mesh size", "why_tests_cant": "the predicate must hold for all integer sextuples in each of the three axes", "anchors": ["src/bounding_box.h:bboxIsNormal", "src/bounding_box.h:bboxIsWithin", "src/block.c:parseMB", "src/surface.c:parseTB", "src/line.c:parseTW", "src/source.c:parseEX", "src/observer.c:parseOP", "src/planewave.c:parsePW"]}
{"id": "C05", "title": "Bounding box classification is geometric", "statement": "A normal box is a volume, surface, line or point according to how many of its extents are zero, the direction reported for a line is its long axis and for a surface its normal axis, faces of a box are the degenerate boxes on its six sides, and the test for a box of one cell/face/edge accepts exactly those.", "quantifier": "every normal integer box", "why_tests_cant": "quantifies over all integer boxes", "anchors": ["src/bounding_box.c:bboxType", "src/bounding_box.c:bboxDirection", "src/bounding_box.c:getFaceOfBoundingBox", "src/bounding_box.c:bboxIsElemental"]}
{"id": "C06", "title": "Face masks mean what the user wrote", "statement": "A mask string of six binary digits switches on exactly the faces xlo,xhi,ylo,yhi,zlo,zhi whose digit is 1; strings that are not a binary number up to 111111 are rejected; decoding and re-encoding a mask is the identity.", "quantifier": "every string, every mask, every face", "why_tests_cant": "quantifies over all strings; the digit order is easy to get reversed on one pair only", "anchors": ["src/bounding_box.c:setFaceMaskFromString", "src/bounding_box.c:isFaceActive", "src/bounding_box.c:faceMask2boolArray"]}
{"id": "C07", "title": "Grid extents add the absorbing layers consistently", "statement": "For every mesh size and every number of boundary layers on each face, the user region sits inside the outer grid at an offset equal to the low-side layers, the outer grid is the user region plus the layers, there is exactly one ghost cell outside each face, and every box given in user coordinates lands inside the user region.", "quantifier": "every mesh size and every layer count per face", "why_tests_cant": "six independent layer counts and three sizes", "anchors": ["src/grid.c:setGridExtents", "src/bounding_box.h:offsetBoundingBox"]}
{"id": "C08", "title": "No field update reads or writes outside the allocated arrays", "statement": "In every time step, for every mesh size, layer thickness, boundary type and set of Debye blocks, impedance sheets, sources and plane waves placed inside the mesh, each array element read or written by the electric and magnetic updates of the grid, the layers, the Mur and ghost planes and of every item lies within the allocated array. An analytically computed plane wave must have no active low face on the low side of the mesh: with one, the mesh line before the first is read.", "quantifier": "every mesh size, boundary configuration, list of items, field component and loop index", "why_tests_cant": "a single out-of-range stencil on one face for one size is undefined behaviour that a passing test need not show", "anchors": ["src/grid.c:setFieldLimits", "src/grid.c:updateGridEfield", "src/grid.c:updateGridHfield", "src/surface.c:updateGhostEfield", "src/surface.c:updateGhostHfield", "src/alloc_array.c:allocArray", "src/debye.c:initDebyeBlocks", "src/sibc.c:initSibcSurfaces", "src/planewave.c:initAuxGrid", "src/planewave.c:incidentFieldAnalytic"]}
{"id": "C09", "title": "Each field sample is advanced exactly once per step", "statement": "For every mesh and every choice of absorbing (PML) faces, the main-grid update and the six PML slabs partition the outer grid: each field sample of each component in the outer region is advanced by exactly one of them, once.", "quantifier": "every mesh size, every layer count per face, every component and index", "why_tests_cant": "a doubly-updated or skipped edge/corner row appears only for particular face combinations", "anchors": ["src/pml.c:setPmlLimits", "src/grid.c:setFieldLimits", "src/grid.c:initFieldArrayLimits", "src/pml.c:updatePmlEfield"]}
{"id": "C10", "title": "Field updates are independent of loop order and thread schedule", "statement": "The result of one electric (or magnetic) field update is the same for every order in which its samples are visited, hence for every OpenMP schedule.", "quantifier": "every visiting order, every field state", "why_tests_cant": "number of schedules is factorial in the grid size", "anchors": ["src/grid.c:updateGridEfield", "src/grid.c:updateGridHfield", "src/pml.c:updatePmlEfield"]}
{"id": "C11", "title": "Superposition", "statement": "For fixed geometry and materials the fields after any number of steps are a linear function of the initial fields and source amplitudes: scaling or adding excitations scales or adds the responses.", "quantifier": "every pair of states/excitations, all scalars, every number of steps", "why_tests_cant": "quantifies over all excitations and all run lengths", "anchors": ["src/simulation.c:propagate", "src/grid.c:updateGridEfield", "src/grid.c:updateGridHfield", "src/debye.c:updateDebyeBlocksEfield", "src/pml.c:updatePmlEfield"]}
{"id": "C12", "title": "No excitation, no field", "statement": "Starting from the cleared grid with no active source, every field sample is zero at every time step.", "quantifier": "every geometry, every run length", "why_tests_cant": "needs all run lengths", "anchors": ["src/grid.c:clearGrid", "src/simulation.c:propagate"]}
{"id": "C13", "title": "Perfect conductors stay field-free", "statement": "Every electric field sample assigned to a perfect electric conductor is zero at every time step, whichever way the user named the PEC medium.", "quantifier": "every state, every number of steps, every way of declaring a PEC medium", "why_tests_cant": "invariant over all executions", "anchors": ["src/medium.c:initMedia", "src/medium.c:parseMT", "src/medium.c:calcCoeffFromParam", "src/grid.c:updateGridEfield"]}
{"id": "C14", "title": "Update coefficients realise Maxwell's equations in simple media", "statement": "For every permittivity, conductivity, permeability and time step with non-zero denominator, one electric update satisfies eps (E'-E)/dt + sigma (E'+E)/2 = curl H and one magnetic update satisfies mu (H'-H)/dt = -curl E; a passive medium gives |alpha| <= 1 and beta > 0.", "quantifier": "all real material parameters, time steps and field values", "why_tests_cant": "quantifies over the reals", "anchors": ["src/medium.c:calcCoeffFromParam", "src/grid.c:updateGridEfield", "src/grid.c:updateGridHfield"]}
{"id": "C15", "title": "Magnetic charge is never created", "statement": "The discrete divergence of the magnetic flux through the faces of every cell updated by the main grid is unchanged by every step, so it stays zero for a run started from the cleared grid.", "quantifier": "every cell, every non-uniform mesh, every number of steps", "why_tests_cant": "invariant over all executions", "anchors": ["src/grid.c:updateGridHfield", "src/grid.c:updateGridEfield", "src/grid.c:initCellEdges"]}
{"id": "C16", "title": "Information travels at most one cell per step", "statement": "The fields in a region after n steps depend only on the excitation and on the initial fields within n cells of the region or of one of its periodic copies. In models with impedance sheets the distance is one and a half cells per step.", "quantifier": "all models, all pairs of initial states, all regions, all n", "why_tests_cant": "quantifies over pairs of executions", "anchors": ["src/grid.c:updateGridEfield", "src/grid.c:updateGridHfield", "src/surface.c:updateGhostHfield", "src/mur.c:updateMurEfield", "src/sibc.c:updateSibcSurfacesHfield"]}
{"id": "C17", "title": "Energy is conserved and fields stay bounded under the Courant limit", "statement": "In a closed, lossless PEC box the discrete electromagnetic energy is exactly constant in time and, for a Courant number below one, positive definite, so no run of any length blows up.", "quantifier": "every mesh, every initial field, every number of steps", "why_tests_cant": "late-time instability can only be excluded for all run lengths by an invariant", "anchors": ["src/grid.c:updateGridEfield", "src/grid.c:updateGridHfield", "src/simulation.c:initSimulation"]}
{"id": "C18", "title": "Mesh line geometry", "statement": "Cell edge lengths are differences of neighbouring mesh lines inside the mesh and copies of the boundary cell in the layers, dual edges are averages of neighbouring edges, and the physical position of every node is the sum of the preceding edges plus the origin, so positions of user mesh lines are reproduced exactly.", "quantifier": "every list of mesh lines, every layer count, every node", "why_tests_cant": "all list lengths and positions", "anchors": ["src/grid.c:initCellEdges", "src/grid.c:nodeInPhysicalUnits", "src/grid.c:setUniformMesh", "src/grid.c:parseMS"]}
{"id": "C19", "title": "Later material blocks override earlier ones and masks choose the faces", "statement": "After any sequence of MB cards every field sample has the medium of the last block that contains it, where a block contains the samples in its interior and those in exactly the faces selected by its mask.", "quantifier": "every sequence of blocks, masks and every sample", "why_tests_cant": "all sequences of overlapping boxes", "anchors": ["src/block.c:initBlocks", "src/grid.c:setMediumOnGrid", "src/grid.c:setFieldLimits"]}
{"id": "C20", "title": "Names are resolved uniquely", "statement": "Media, boundaries, wires, waveforms and sources are numbered consecutively in order of declaration, no two share a name, a name always resolves to the entity declared with it, and a duplicate declaration is rejected.", "quantifier": "every history of declarations", "why_tests_cant": "all declaration histories", "anchors": ["src/medium.c:addMedium", "src/boundary.c:addBoundary", "src/wire.c:addWire", "src/waveform.c:addWaveform", "src/source.c:addSource"]}
{"id": "C21", "title": "Symmetry and periodic ghost fields", "statement": "After each ghost update the ghost magnetic field outside every PMC face is minus its mirror image (so the tangential magnetic field on the wall vanishes in the mean), and outside every periodic face it equals the field one period away.", "quantifier": "every field state, every grid size, every boundary combination", "why_tests_cant": "all sizes and combinations of adjoining boundary types", "anchors": ["src/surface.c:updateGhostEfield", "src/surface.c:updateGhostHfield"]}
{"id": "C22", "title": "Mur boundaries absorb a normally incident wave", "statement": "The Mur update satisfies the centred discretisation of the one-way wave equation, its coefficient has modulus below one, and a discrete outgoing wave travelling at the numerical speed is a solution of it.", "quantifier": "all field histories, cell sizes and time steps", "why_tests_cant": "quantifies over the reals and all histories", "anchors": ["src/mur.c:initMurBoundaries", "src/mur.c:updateMurEfield", "src/mur.c:updateMurHfield"]}
{"id": "C23", "title": "PML reduces to the ordinary update and never amplifies", "statement": "With a loss-free profile the PML update is exactly the ordinary update; for every non-negative profile the PML coefficients satisfy |ad| <= 1 and 0 < bd <= 1; conductivity grows monotonically from zero at the inner interface.", "quantifier": "all profiles, depths and field states", "why_tests_cant": "quantifies over the reals", "anchors": ["src/pml.c:setProfile", "src/pml.c:pmlSigmaProfile", "src/pml.c:pmlKappaProfile", "src/pml.c:updatePmlEfield"]}
{"id": "C24", "title": "Debye media satisfy the discrete dispersive Ampere law", "statement": "For every set of poles one update of a Debye medium satisfies the trapezoidal polarisation-current equation of each pole and the discrete Ampere law with the mean polarisation current.", "quantifier": "all poles, residues, conductivities and field values, all steps", "why_tests_cant": "quantifies over the complex numbers and all histories", "anchors": ["src/debye.c:updateDebyeBlocksEfield", "src/debye.c:initDebyeBlocks", "src/medium.c:calcCoeffFromParam"]}
{"id": "C25", "title": "Recursive convolution equals direct convolution", "statement": "For any pole-residue response the recursive filter's output on any input sequence equals the exact convolution of that response with the piecewise-linear interpolant of the input.", "quantifier": "all input sequences of any length, all poles, residues and time steps", "why_tests_cant": "all sequences", "anchors": ["src/filter.c:yfRecConvStep", "src/filter.c:yfPoleResidue2RecConv"]}
{"id": "C26", "title": "Impedance boundary data: scattering to impedance and passivity", "statement": "The impedance matrix computed from a scattering matrix satisfies Z(I-S)=eta0(I+S) whenever it is defined, and the passivity check accepts exactly the matrices for which no incident wave is scattered with more power.", "quantifier": "all 2x2 matrices", "why_tests_cant": "quantifies over the reals; counterexamples lie between the sampled ones", "anchors": ["src/sibc.c:tportS2Z", "src/sibc.c:isPassiveS", "src/sibc.c:initSibcBoundary"]}
{"id": "C27", "title": "Sources deliver the amplitude the user asked for", "statement": "A soft current source drives a total current equal to its size times the waveform through the cell area of its edges, a current-moment source a total moment, a hard field source imposes exactly its size times waveform, and a resistive lumped source presents exactly its resistance.", "quantifier": "all source types, edge lengths, sizes, waveform values and prior fields", "why_tests_cant": "84 tags times all real parameters", "anchors": ["src/source.c:initSources", "src/source.c:updateSourcesEfield", "src/source.c:updateSourcesHfield", "src/source.c:parseEX"]}
{"id": "C28", "title": "Built-in waveforms have their documented shape", "statement": "Pulses have the documented support, range and peak: the compact pulse is sin^6, lies in [0,1], vanishes outside (0,2w), peaks with value 1 at w and is continuous; the Gaussian is at most one, the ramped sinusoid is bounded by one and becomes the pure sinusoid after the ramp.", "quantifier": "all times and parameters", "why_tests_cant": "quantifies over all real times", "anchors": ["src/waveform.c:compactPulse", "src/waveform.c:gaussianPulse", "src/waveform.c:rampedSinusoid", "src/waveform.c:getWaveformValue"]}
{"id": "C29", "title": "Tabulated waveforms are interpolated correctly and statelessly", "statement": "A waveform read from file passes through every table point, is zero outside the table, has continuous slope, and its value at a time does not depend on which times were evaluated before (nor by which thread).", "quantifier": "all strictly increasing tables, all times, all histories of evaluations", "why_tests_cant": "all call histories of a cached search", "anchors": ["src/waveform.c:evalSpline", "src/waveform.c:createSplines", "src/waveform.c:externalWaveform"]}
{"id": "C30", "title": "Plane wave polarisation", "statement": "For all incidence and polarisation angles the electric, magnetic and propagation vectors are mutually orthogonal, right-handed, with |E| = size and |E|/|H| = eta0, and the wave reaches the chosen origin corner of the Huygens box before any other point of it.", "quantifier": "all angles admitted by the PW card and all boxes", "why_tests_cant": "quantifies over continuous angles including the quadrant boundaries", "anchors": ["src/planewave.c:parsePW", "src/planewave.c:calcIncidentFieldVectors"]}
{"id": "C31", "title": "Huygens surface separates total and scattered field", "statement": "If the incident field is a solution of the discrete update equations in the background medium, the plane-wave corrections make the field equal to it inside the closed Huygens box and leave it zero outside, at every step, whatever the background permittivity and permeability, as long as the faces of the box carry no electric loss. With the one-dimensional auxiliary grid of a cubic mesh this is exact for the six directions along the axes, and for every direction all lookups stay inside the auxiliary arrays and clear of their absorber. On lossy faces the loss factor is applied a second time and the separation fails by a definite amount.", "quantifier": "all incident solutions, boxes, media and step counts", "why_tests_cant": "all run lengths and boxes", "anchors": ["src/planewave.c:initPlaneWaves", "src/planewave.c:updatePlaneWavesEfield", "src/planewave.c:updatePlaneWavesHfield"]}
{"id": "C32", "title": "Observers record exactly the requested window", "statement": "A time-domain observer records one sample, of the fields as they are before that step's update, for exactly the steps in the inclusive OT window that the run reaches, no more and no fewer and in order; waveform files hold every step of the run; a stride selects exactly every k-th node from the low corner, each once; with positive strides the recording always ends.", "quantifier": "all windows, strides, boxes and run lengths", "why_tests_cant": "all integers", "anchors": ["src/observer.c:updateObservers", "src/observer.c:initObservers", "src/observer.c:getNumberOfOutputNodes", "src/observer.c:parseOT"]}
{"id": "C33", "title": "Frequency-domain output is the discrete Fourier transform", "statement": "The accumulator of a frequency-domain field observer equals the sum over the window's steps of the field value times exp(-j 2 pi f n dt), that of a waveform the same sum over the whole run, and the written transfer value is the ratio of the two whenever the latter is non-zero; the frequencies are equally spaced from first to last.", "quantifier": "all signals, frequencies and lengths", "why_tests_cant": "all signals", "anchors": ["src/observer.c:updateObserverAsciiFreq", "src/observer.c:flushObserverDft"]}
{"id": "C34", "title": "Binary output files are self-consistent", "statement": "Reading impulse.dat by its format gives back exactly the samples of the steps in the window, in the order and with the nodes the box lines of process.dat describe; record p occupies bytes 8+36p to 8+36p+35; the header announces the number of steps recorded whenever the window ends within the run.", "quantifier": "all windows, strides, boxes and run lengths", "why_tests_cant": "all sizes and run lengths", "anchors": ["src/observer.c:initImpulseDat", "src/observer.c:updateImpulseDat", "src/observer.c:writeProcessDat"]}
{"id": "C35", "title": "The run performs exactly the requested number of steps", "statement": "A mesh with NT N runs exactly the steps 0..N-1, evaluating E at n dt and H at (n+1/2) dt, and the time step satisfies the Courant limit for the smallest cell.", "quantifier": "all N, all meshes", "why_tests_cant": "includes the boundary N=0 and unsigned wrap-around", "anchors": ["src/simulation.c:propagate", "src/simulation.c:parseNT", "src/simulation.c:parseCN", "src/simulation.c:initSimulation"]}
{"id": "C36", "title": "Geometry export numbers nodes and elements uniquely", "statement": "In the exported gmsh file every node is written at most once under a number between 1 and the number of mesh nodes that decodes to its grid indices, exactly the nodes used by elements are written, every entity contributes exactly one element per unit cell (or one point per selected node) of its box in gmsh's node order, entity and group numbers are fresh, and equal names map to one physical group of one dimension.", "quantifier": "all grid sizes and histories of entity additions", "why_tests_cant": "all sizes", "anchors": ["src/gmsh.c:encodeNodeNumber", "src/gmsh.c:gmshAddEntity", "src/gmsh.c:gmshGetEntityNumber"]}
{"id": "C37", "title": "Array allocation gives every element its own storage", "statement": "For any number of dimensions and sizes the index-to-address map of an allocated array is injective, stays inside the block of the announced size and is contiguous in the last index.", "quantifier": "all dimensions and sizes", "why_tests_cant": "all shapes", "anchors": ["src/alloc_array.c:allocArray", "src/alloc_array.c:deallocArray"]}
{"id": "C38", "title": "Errors stop the program", "statement": "A message of ERROR severity ends the run with a non-zero exit status and is reported regardless of verbosity, lower severities never end it, a run's status is zero exactly when no error was sent, and no command line can hide warnings or errors.", "quantifier": "all severities, all verbosity settings", "why_tests_cant": "all histories", "anchors": ["src/message.c:message", "src/vulture.c:parseOption"]}
{"id": "C39", "title": "No axis is preferred", "statement": "If every axis of an experiment is renamed x to y, y to z, z to x (mesh, boundary types, absorbing layers, media, blocks, sources, plane waves, surfaces), the program computes the same fields with the renamed components at the renamed points, in every time step.", "quantifier": "every mesh, every combination of boundaries and items, every medium, every number of steps, every grid point", "why_tests_cant": "every component has its own hand-written copy of each update; a test of some configurations on one axis does not show that the three copies agree for all meshes, materials and boundary combinations, and corners belong to the slabs in a fixed order", "anchors": ["src/grid.c:updateGridEfield", "src/grid.c:updateGridHfield", "src/pml.c:updatePmlEfield", "src/pml.c:updatePmlHfield", "src/mur.c:updateMurEfield", "src/surface.c:updateGhostEfield", "src/source.c:updateSourcesEfield", "src/planewave.c:updatePlaneWavesEfield", "src/debye.c:updateDebyeBlocksEfield", "src/sibc.c:updateSibcSurfacesEfield"]}
{"id": "C40", "title": "Materials continue unchanged into the absorbing layers", "statement": "Every field sample inside a PML layer has the medium of the nearest sample of the same component in the user region, so material touching an absorbing boundary continues straight through it.", "quantifier": "every geometry, every layer count per face, every sample of every component", "why_tests_cant": "all geometries and corner combinations", "anchors": ["src/pml.c:initPmlMaterialArrays"]}
{"id": "C41", "title": "Non-uniform meshes are recognised", "statement": "The mesh is treated as uniform (allowing the one-dimensional auxiliary grid for plane waves) exactly when all cells along each axis have the same size up to the tolerance; in particular a mesh with unequal neighbouring cells is classified as non-uniform.", "quantifier": "all mesh line lists and tolerances", "why_tests_cant": "the example meshes are uniform or grow; a mesh that shrinks takes the wrong branch silently", "anchors": ["src/grid.c:setGridType", "src/planewave.c:initPlaneWaves"]}
{"id": "C42", "title": "Turning or flipping an impedance sheet neither creates nor loses power", "statement": "For every angle and both orientations, the power flowing from the mesh into an impedance surface equals the power at its ports, so passive data give a surface that never supplies power; an isotropic surface does not depend on the angle, a quarter turn exchanges the polarisations and the opposite orientation exchanges the two sides.", "quantifier": "all angles, orientations, impedance matrices and fields", "why_tests_cant": "continuous angles and fields", "anchors": ["src/sibc.c:updateSibcSurfacesEfield", "src/sibc.c:matLinearComb", "src/sibc.c:Acp"]}
{"id": "C43", "title": "A sheet knows which sheets stand on its edges", "statement": "For every set of impedance sheets in the mesh, the set-up records for every face of every sheet, for each of its four edges and each of its two sides, whether another sheet stands on that edge, and the record depends on the mesh file alone. (Found false in three ways: the record of one edge of each face looks one cell too far, records of faces at the outer boundary come from memory that was never written, and the update applies the record of the opposite edge.)", "quantifier": "every set of sheets, grid size, orientation, face, edge and side", "why_tests_cant": "a flag taken from the wrong neighbour or from uninitialised memory shows only for particular pairs of sheets, and then not on every run", "anchors": ["src/sibc.c:initSibcSurfaces", "src/sibc.c:setSibcFace", "src/sibc.c:updateSibcSurfacesHfield"]}
{"id": "C44", "title": "A geometry card is accepted exactly when it follows its rules", "statement": "A mesh-size, block, surface, wire, source, observer or plane-wave card is accepted exactly when it has enough fields, its box passes the limit checks and is of the right kind (volume, surface, line, point), every medium, boundary, wire type or waveform it names has been declared, its own name is new where names must be unique, and its orientation, angles, steps, mask and size lie in their ranges; otherwise it is rejected.", "quantifier": "every card of the seven kinds, every mesh, every set of declared names", "why_tests_cant": "all combinations of fields, names and ranges; both directions", "anchors": ["src/grid.c:parseDM", "src/block.c:parseMB", "src/surface.c:parseTB", "src/line.c:parseTW", "src/source.c:parseEX", "src/observer.c:parseOP", "src/planewave.c:parsePW"]}
{"id": "C45", "title": "Reciprocity", "statement": "In a closed box (perfectly conducting walls) with any mesh and any isotropic simple media, lossy or not, exchanging source and observer does not change the signal: the voltage along one edge caused by a current through another edge is, in every step, the voltage along the other edge caused by the same current through the first. More generally the convolved reactions of the fields of one experiment with the electric and magnetic currents of another agree in both directions.", "quantifier": "every mesh, media, pair of experiments with any number of soft electric and magnetic current sources, all waveforms, every step", "why_tests_cant": "a test compares some pairs of points in some geometry within a tolerance; the identity is exact and holds for all media arrangements, meshes and waveforms only if the two curls, the dual lengths and the coefficients fit together at every sample", "anchors": ["src/grid.c:updateGridEfield", "src/grid.c:updateGridHfield", "src/source.c:updateSourcesEfield", "src/source.c:updateSourcesHfield", "src/medium.c:calcCoeffFromParam", "src/grid.c:initCellEdges"]}
{"id": "C46", "title": "Energy supplied by sources is accounted for", "statement": "In a closed box the electromagnetic energy gained in a time step equals the work done by the impressed electric and magnetic currents in that step minus the ohmic heat; no energy appears or disappears otherwise.", "quantifier": "every mesh, media, list of soft current sources, waveforms and step", "why_tests_cant": "exact balance for all field histories and drives, not observable by any finite set of runs", "anchors": ["src/grid.c:updateGridEfield", "src/grid.c:updateGridHfield", "src/source.c:updateSourcesEfield", "src/source.c:updateSourcesHfield"]}
{"id": "C47", "title": "An accepted mesh file runs inside its memory and each card acts where it says", "statement": "If every card of a mesh file is accepted and the z sides of its boxes are ordered, the run built from it reads and writes allocated array elements only, in every step. The run contains exactly one Debye block for every block card with a Debye medium, one impedance sheet for every surface card with an impedance boundary, one source per excitation card and one plane wave per plane-wave card, in the order of the file, each acting on the box of its card moved by the absorbing layers, and nothing else; a card that is rejected stops the program before the run.", "quantifier": "every list of cards, mesh size, boundary types and layer counts", "why_tests_cant": "the list of cards is unbounded; the claim is about every file that the parser accepts", "anchors": ["src/mesh.c:readMesh", "src/block.c:parseMB", "src/surface.c:parseTB", "src/source.c:parseEX", "src/planewave.c:parsePW", "src/debye.c:initDebyeBlocks", "src/sibc.c:initSibcSurfaces", "src/source.c:initSources", "src/planewave.c:initPlaneWaves"]}
{"id": "C48", "title": "Waveforms act at the time and place the file says", "statement": "A source or incident wave of size A and delay T with waveform w acts on a field sample, in every step, as A w(t - T) with t the sample's own time (for currents: the middle of the interval they act over), and for incident waves less the travel time from the wave's reference corner. Increasing all delays by a whole number of time steps shifts the whole run by that number of steps; multiplying all sizes multiplies all fields.", "quantifier": "every accepted file, step, sample, waveform, delay and size", "why_tests_cant": "the statement ranges over all files, steps, samples, waveforms and delays; a half-step error is invisible to tests with tolerances", "anchors": ["src/simulation.c:propagate", "src/source.c:updateSourcesEfield", "src/source.c:updateSourcesHfield", "src/planewave.c:incidentFieldAnalytic", "src/planewave.c:updatePlaneWavesEfield", "src/planewave.c:updateAuxGridEfield", "src/waveform.c:getWaveformValue"]}
{"id": "C49", "title": "Outer walls are mirrors, and a symmetry plane may be replaced by a wall", "statement": "A run in a box whose outer faces are conducting, magnetic or periodic walls gives, on every sample of the box and in every step, exactly the fields of unbounded space containing the box's media and current sources together with all their mirror images (tangential electric currents and normal magnetic currents reversed in a conducting wall, the others in a magnetic wall) and periodic repetitions. Consequently, if the mesh, the media and the currents of a model are their own mirror image in its middle plane, one may simulate the upper half only, closed by the conducting or magnetic wall of that kind: the half gives exactly the fields of the upper half of the whole run, and their images are those of the lower half.", "quantifier": "every mesh size, mesh spacing, combination of such walls, filling with simple media, set of electric and magnetic current sources, driving values, step and sample", "why_tests_cant": "the claim is an exact equality of two infinite families of runs over all media, sources and steps; a test compares two runs on one mesh up to a tolerance", "anchors": ["src/surface.c:updateGhostEfield", "src/surface.c:updateGhostHfield", "src/surface.c:initExternalPecPmcSurfaces", "src/grid.c:updateGridEfield", "src/grid.c:updateGridHfield", "src/source.c:updateSourcesEfield", "src/source.c:updateSourcesHfield"]}
{"id": "C50", "title": "The companion reader returns exactly what was recorded", "statement": "Given the binary result files of a run, the companion reader returns, for every binary observer and every selection of recorded steps, the axes with exactly the nodes the observer's card describes, for each selected step and each node the six field values the run had at that node at the beginning of that step, and the time of that step.", "quantifier": "every model, observer set, node stride, recording window, selection of steps, node and component", "why_tests_cant": "the reader computes file positions from the sizes of all the observers' boxes; the equality must hold for every set of boxes, strides and selections, and over every history of fields", "anchors": ["m/tdfdReadImpulseDat3D.m", "src/observer.c:updateImpulseDat", "src/observer.c:initImpulseDat", "src/observer.c:writeProcessDat"]}
{"id": "C51", "title": "The post-processing scripts give the spectra the run itself writes", "statement": "For a run recorded over its whole length with the default frequencies, the scripts that transform the recorded time-domain results give, at every frequency, node and component, the transfer function that the run's own frequency-domain observer writes for that node: from the text files exactly, from the binary files the quotient of the transforms of the recorded values.", "quantifier": "every model, run length of at least ten steps, node, waveform, component and frequency of the default grid", "why_tests_cant": "two programs compute the same function of an arbitrary recorded history by different routes; agreement must hold for every history and length", "anchors": ["m/xfreq.m", "m/tdfdFFT.m", "m/tdfdReadExciteDat.m", "m/tdfdReadImpulseDat3D.m", "src/observer.c:updateObserverAsciiFreq", "src/observer.c:flushObserverDft", "src/observer.c:initObservers"]}
{"id": "C52", "title": "No side is preferred", "statement": "An experiment seen in a mirror perpendicular to any axis (mesh, boundary types and absorbing layers of the two faces exchanged, media, dispersive blocks, sources and plane waves reflected) computes in every time step the reflected fields: the same values at the reflected points, with the sign a reflection gives to the component.", "quantifier": "every mesh, boundary, layer depth, medium, dispersive block, source, plane wave, axis, excitation history, time step and sample", "why_tests_cant": "the updates run from low to high, treat low faces first and name a half-way sample after its lower node; a test of one symmetric model would not show for which models these choices stay invisible", "anchors": ["src/simulation.c:propagate", "src/grid.c:updateGridEfield", "src/grid.c:updateGridHfield", "src/pml.c", "src/mur.c:updateMurEfield", "src/surface.c:updateGhostEfield", "src/surface.c:updateGhostHfield", "src/debye.c", "src/source.c:updateSources", "src/planewave.c"]}
{"id": "C53", "title": "The description of the recorded data is read back as written", "statement": "The file process.dat a run writes beside its binary results is parsed by the companion reader to exactly what the run recorded: title, number of recorded observers, the box and strides of each, the recorded time steps, the frequencies and the mesh size as printed; with it the companion reader finds every recorded field. A description changed and rewritten by the companion writer is read back as changed.", "quantifier": "every model, comment, number of observers, window, frequency set and mesh size", "why_tests_cant": "the format has no separators beyond white space and no lengths; whether a field swallows its neighbour depends on the values, and only a proof covers all of them", "anchors": ["src/observer.c:writeProcessDat", "m/tdfdReadProcessDat.m", "m/tdfdWriteProcessDat.m", "m/tdfdReadImpulseDat3D.m"]}
{"id": "C54", "title": "Uninitialised memory never matters", "statement": "The same mesh file gives the same run whatever the allocated memory held before and whatever lies beyond the user's arrays: accepted or rejected alike, the same items, the same time step, and the same value of every field sample and auxiliary quantity in every step.", "quantifier": "every mesh file, every prior content of memory, every step", "why_tests_cant": "a test sees the memory one allocator happened to return, usually zero; the claim is about all possible contents", "anchors": ["src/vulture.c:main", "src/grid.c:allocGridArrays", "src/grid.c:initCellEdges", "src/grid.c:initMediaArrays", "src/pml.c:setPmlParameters", "src/sibc.c:initSibcSurfaces", "src/alloc_array.c"]}
{"id": "C55", "title": "Only the electrical size of a model matters", "statement": "A model made r times as large, with conductivities, poles, residues, waveforms, delays and source amplitudes converted to the new unit of length and time, is accepted like the original, runs with a time step r times as long, and gives the same electric and magnetic field in every cell and every step.", "quantifier": "every mesh file, every factor r > 0, every step", "why_tests_cant": "the claim relates two runs for all models and all factors; hidden absolute lengths or times show up only at some scales", "anchors": ["src/grid.c:initCellEdges", "src/grid.c:setGridType", "src/grid.c:numericalPhaseVelocity", "src/pml.c:setPmlParameters", "src/medium.c:calcCoeffFromParam", "src/source.c:initSources", "src/sibc.c:initSibcSurfaces", "src/planewave.c:initPlaneWaves", "src/waveform.c:initWaveforms"]}
{"id": "C56", "title": "Closed cavities, from the mesh file to the fields", "statement": "For every mesh file of a box with six PEC sides, SIMPLE media, PEC plates and wires, current sources and resistive sources that do not lie in a side, and a Courant number between 0 and 1: the run never blows up, i.e. with waveforms that are pulses or tables all field values of all steps stay below one bound; the energy gained in a step is the work of the sources less the heat in the conductivities; and without conductivities the energy is the same in every step once the sources have stopped.", "quantifier": "every mesh file of that kind, every waveform, every step, any number of steps", "why_tests_cant": "late-time instability may set in after any number of steps and depends on the combination of media, plates and sources; a test runs finitely many of both", "anchors": ["src/vulture.c:main", "src/grid.c:initCellEdges", "src/grid.c:initMediaArrays", "src/medium.c:calcCoeffFromParam", "src/source.c:initSources", "src/surface.c:initExternalPecPmcSurfaces", "src/waveform.c:getWaveformValue"]}
{"id": "C57", "title": "Source and probe can be exchanged in the mesh file", "statement": "Take a mesh file of a closed cavity with one EX card for a current along a cell edge. Move that card to another edge, along any axis, and look at the first edge: the field there times the length of the edge is, in every step, the field that was seen at the second edge before times its length.", "quantifier": "every mesh file of a cavity, every pair of edges, every waveform, amplitude and delay, every step", "why_tests_cant": "it relates two runs over all geometries and all pairs of edges; an error of one coefficient at one kind of edge breaks it only there", "anchors": ["src/source.c:parseEX", "src/source.c:initSources", "src/source.c:updateSourcesEfield", "src/grid.c:updateGridEfield", "src/grid.c:updateGridHfield", "src/grid.c:initMediaArrays"]}
{"id": "C58", "title": "Fields are linear in the amplitudes on the cards", "statement": "Take three mesh files that differ only in the amplitudes on their EX and PW cards. If every amplitude of the third is a times that of the first plus b times that of the second, then every field value, at every place and in every step, is a times the first plus b times the second.", "quantifier": "every mesh file and mesh type, all sources (hard, soft, currents, lumped) and plane waves, all a and b, every step", "why_tests_cant": "it is a relation between three runs for every geometry; amplitudes pass through tag tables, edge lengths, coefficients and the auxiliary grid of plane waves, each of which could break it for some cards only", "anchors": ["src/source.c:parseEX", "src/source.c:initSources", "src/source.c:updateSourcesEfield", "src/planewave.c:parsePW", "src/planewave.c:initPlaneWaves"]}
{"id": "C59", "title": "An impedance sheet in the mesh", "statement": "In every step a magnetic field sample next to an impedance sheet is advanced by Faraday's law where the edge of the mesh in the sheet carries, on that side, the mean of the electric fields of the two squares of the sheet that meet at the edge (twice the mean on a magnetic wall or at the end of a period; nothing for a missing square). The mesh's own electric field on the sheet's edges and the magnetic field through the sheet are zero.", "quantifier": "every mesh file, every sheet position, orientation, side and edge, every step and state", "why_tests_cant": "there are eight corrections for each of three orientations and two sides; a wrong sign or weight in one of them shows only for a sheet in that orientation with a field of that polarisation", "anchors": ["src/sibc.c:updateSibcSurfacesEfield", "src/sibc.c:updateSibcSurfacesHfield", "src/surface.c:isPmcEdge", "src/grid.c:updateGridHfield"]}
{"id": "C60", "title": "The gnuplot export shows the mesh file", "statement": "The data files written for gnuplot show, besides two marks that fix the ranges, exactly the edges of the boxes on the MB, TB, TW, EX and PW cards, the twelve edges of the mesh, the mesh lines in the three back planes, one point for every node an observer records, an arrow along the field of every source inside its box, and for every plane wave its direction, electric and magnetic field at the corner where it enters; and the script plots every file that has content.", "quantifier": "every accepted mesh file, both units, every class of box, every combination of items", "why_tests_cant": "a box is drawn by one of eight hand-written polylines depending on its class and direction; whether an edge is missing or a stray segment is drawn, or an index leaves the mesh lines, depends on the box; the script depends on which items exist", "anchors": ["src/gnuplot.c:gnuplotBoundingBox", "src/gnuplot.c:gnuplotVolume", "src/gnuplot.c:gnuplotBoundingBoxArrow", "src/gnuplot.c:gnuplotArrow", "src/gnuplot.c:gnuplotScript", "src/grid.c:gnuplotGridLines", "src/planewave.c:gnuplotPlaneWaves"]}
{"id": "C61", "title": "From the mesh file to the output files", "statement": "A run of an accepted mesh file leaves exactly the files its OP and WF cards ask for, no two with the same name. A time-domain observer's file names the node and its position in metres and holds, for every step of the OT window, the number and time of the step and the six field components of the run at that node; a frequency-domain observer's file holds at every frequency of the OF card the transform of those components divided by the transform of the waveform it names (or the first one); impulse.dat holds for every step of the window the six components at every node of every binary observer's box at its strides, in file order, and the companion reader returns them under the mesh coordinates of the card; excite.dat and the files of a WF card hold the waveform. The same input always leaves the same files.", "quantifier": "every accepted mesh file (any mesh, boundaries, media, sources, observers), every window, frequency list and number of steps", "why_tests_cant": "the statement joins reading, placement on the grid (which shifts with every absorbing layer), time stepping, windows, strides, transforms and the numbering of waveforms and observers for all files at once", "anchors": ["src/observer.c:parseOP", "src/observer.c:initObservers", "src/observer.c:updateObservers", "src/observer.c:flushObserverDft", "src/observer.c:updateImpulseDat", "src/observer.c:deallocObservers", "src/simulation.c:propagate", "m/tdfdReadImpulseDat3D.m"]}
{"id": "C62", "title": "The text of the mesh file means what it says", "statement": "However a mesh file is laid out - white space between fields and around cards, comments, the spelling of numbers (signs, leading zeros, points, exponents), optional fields left out, mesh lines spread over lines, though not lines of white space (C03) - it is read as the list of its cards with the values written on them and the documented default for every value left out; two layouts of the same cards lead to the same run and the same files. A file whose cards are out of sequence is not read.", "quantifier": "every list of statements of the mesh format and every text that lays it out", "why_tests_cant": "infinitely many spellings and layouts; what a scanf conversion leaves behind decides what the next one sees", "anchors": ["src/mesh.c:readMesh", "src/mesh.c:meshReadRealArray", "src/block.c:parseMB", "src/surface.c:parseTB", "src/medium.c:parseMT", "src/boundary.c:parseBT", "src/waveform.c:parseWF", "src/source.c:parseEX", "src/planewave.c:parsePW", "src/observer.c:parseOP", "src/simulation.c:parseNT", "src/grid.c:parseDM"]}
{"id": "C63", "title": "A run simulates what its mesh file says", "statement": "The experiment of a mesh file has the size of its DM card, the mesh lines of its MS or XL, YL, ZL cards, the steps, window, frequencies and Courant number of its NT, OT, OF and CN cards (or the defaults), the waveforms of its WF cards, exactly the items its model section asks for in their order, and on every outer face the boundary of its BT card, of the BR card (with the depths of a BE card after it), or else the default absorbing layer, which a BE card alone does not change.", "quantifier": "every well-sequenced mesh file, every outer face, every contents of the files it names", "why_tests_cant": "all combinations of optional cards and of the old and new way to give the outer faces", "anchors": ["src/surface.c:parseBR", "src/boundary.c:parseBE", "src/boundary.c:parseBT", "src/surface.c:initExternalSurfaceParameters", "src/pml.c:setPmlDefaults", "src/grid.c:parseMS", "src/grid.c:setUniformMesh", "src/simulation.c:initSimulation", "src/medium.c:addMedium", "src/waveform.c:addWaveform"]}
{"id": "C64", "title": "Every sample is made of what the cards say", "statement": "The cards of a mesh file make every sample of the mesh of exactly one material, named by the coordinates the user writes: the resistance of the last lumped source containing it, else the metal of a perfectly conducting side of the mesh, else the last internal surface containing it, else the last wire, else the medium of the last block containing it (faces excluded by the mask of a block do not belong to it), else vacuum. In the run the sample obeys the difference equations of that material with the time step of the run: Ampere's law with its permittivity and conductivity, Faraday's law with its permeability; the electric field of a metal sample is zero in every step unless a source imposes it there or the sample lies in a MUR side.", "quantifier": "every accepted mesh file, mesh, time step and constants, every field component and sample of the mesh, every step", "why_tests_cant": "all overlaps of blocks, wires, surfaces, sources and sides with all masks, in every order", "anchors": ["src/grid.c:setMediumOnGrid", "src/block.c:initBlocks", "src/line.c:initLines", "src/surface.c:initInternalSurfaces", "src/surface.c:initExternalPecPmcSurfaces", "src/source.c:initSources", "src/medium.c:calcCoeffFromParam", "src/medium.c:initMedia", "src/block.c:parseMB", "src/vulture.c:main"]}
{"id": "C65", "title": "An impedance sheet obeys the law its cards declare", "statement": "In every step of the run of every accepted mesh file, the electric field of every square of an impedance sheet on each of its sides is the response of the boundary type named by its card to the magnetic fields beside the square since the start of the run (the exact convolution with the piecewise-linear interpolant), in the frame turned by the angle of the card about the normal and with the first port on the side its orientation says. The magnetic field beside a square is the mean of the two samples at its edges; a sample that lies in another sheet standing on the edge is zero and does not count. A sheet declared by passive scattering parameters never supplies power to the mesh at any square in any step.", "quantifier": "every accepted mesh file, sheet card (angle, orientation, normal), boundary data, square, step and drive", "why_tests_cant": "three normals, two orientations, continuous angles, all pole-residue data and whole histories of the field", "anchors": ["src/sibc.c:updateSibcSurfacesEfield", "src/sibc.c:initSibcSurfaces", "src/sibc.c:initSibcBoundary", "src/surface.c:parseTB", "src/boundary.c:parseBT", "src/filter.c:yfRecConvStep"]}
{"id": "C66", "title": "Data files mean the numbers in them", "statement": "The files that cards name (waveform tables, Debye parameters, impedance sheets) are read as the numbers written in them, however these are spelled and laid out. An EXTERNAL waveform passes through every row of its file, delayed and scaled as its card says, and is zero outside the table; a file with fewer than two rows, times that do not rise or anything that is not a number is rejected. A Debye file gives the medium its parameters; it is rejected if a number is out of range or a pole is missing. A sheet file of 2x2 or 4x4 entries gives each entry its asymptote, poles and residues as the manual's table lists them; other sizes and incomplete files are rejected.", "quantifier": "every file contents, spelling and layout of its numbers, number of rows, poles and entries, and every mesh file that names it", "why_tests_cant": "texts are unbounded and have unboundedly many spellings and layouts", "anchors": ["src/waveform.c:loadExternalWaveform", "src/waveform.c:createSplines", "src/medium.c:readDebyeParameters", "src/filter.c:yfReadPoleResidueM", "src/sibc.c:initSibcBoundary"]}
{"id": "C67", "title": "Observing does not disturb", "statement": "Adding, removing, changing or moving OP cards changes no field: the time step and every field value in every step are the same. The output file of an OP card, in time or frequency, and the files of the WF cards do not depend on which other OP cards there are; the binary record file depends on the binary OP cards only. Leaving OP cards out of an input that runs to its end gives an input that runs to its end.", "quantifier": "every accepted mesh file, every two sets of OP cards, every step, sample and output file", "why_tests_cant": "there are unboundedly many inputs, choices of observers and steps; a test compares one pair", "anchors": ["src/observer.c:parseOP", "src/observer.c:initObservers", "src/observer.c:updateObservers", "src/simulation.c:propagate"]}
{"id": "C68", "title": "A longer run only appends", "statement": "The same input with a larger number of steps leaves the same files, and every file of time steps (probes, waveforms, excitation values, binary records) begins with all that the shorter run has written; only the spectra and the announced number of steps may differ.", "quantifier": "every input that runs to its end, every two numbers of steps, every file", "why_tests_cant": "numbers of steps and inputs are unbounded", "anchors": ["src/simulation.c:parseNT", "src/simulation.c:propagate", "src/observer.c:updateObservers", "src/observer.c:initObservers"]}
{"id": "C69", "title": "A run is a linear time-invariant system", "statement": "For every accepted mesh file there are responses, one per source and plane wave, fixed by the mesh file without its waveforms and delays, such that for all waveforms and delays the input is accepted, has the same time step, and every field value before every step is the convolution of the sampled, delayed waveforms with the responses (plane waves: on cubic meshes).", "quantifier": "every accepted mesh file, all waveforms, all delays, every step and sample", "why_tests_cant": "ranges over all waveforms and all steps", "anchors": ["src/simulation.c:propagate", "src/source.c:updateSourcesEfield", "src/source.c:updateSourcesHfield", "src/planewave.c:updateAuxGridEfield", "src/waveform.c:getWaveformValue"]}
{"id": "C70", "title": "Transfer functions do not depend on the amplitude of the waveforms", "statement": "The fields are linear in the waveforms: if the waveforms of one input are a combination of those of two others at every time, so are the fields, on every mesh. Multiplying all waveforms by a nonzero number, such as the amplitudes on all WF cards by a positive one, leaves the file of every frequency-domain observer as it is.", "quantifier": "every accepted mesh file, all waveforms and factors, every step, sample, frequency and observer", "why_tests_cant": "ranges over all waveforms, factors and inputs", "anchors": ["src/waveform.c:getWaveformValue", "src/waveform.c:initWaveforms", "src/observer.c:flushObserverDft", "src/planewave.c:incidentFieldAnalytic"]}
{"id": "C71", "title": "A plane wave along an axis fills its empty box and nothing else", "statement": "In a mesh file whose only excitation is a plane wave along a coordinate axis with all its faces switched on, on an evenly spaced cubic mesh, and whose box holds vacuum and stays one cell (two at a MUR side) from the sides of the mesh: every sample outside the box is zero before every step, whatever stands there; inside, the components along the direction of travel are zero and the transverse ones are the amplitude on the card times the polarisation vector of its angles times the solution of the one-dimensional wave equation at the sample's distance from the entry side, driven by the delayed waveform. Before echoes of the end of the line can return that solution is the one on an endless line. With all faces switched off nothing is excited.", "quantifier": "every accepted mesh file of this form: all media, walls, PML and MUR sides outside the box, all six directions, polarisations, waveforms, delays, every step and sample", "why_tests_cant": "meshes, waveforms and numbers of steps are unbounded", "anchors": ["src/planewave.c:initPlaneWaves", "src/planewave.c:updatePlaneWavesEfield", "src/planewave.c:updatePlaneWavesHfield", "src/planewave.c:updateAuxGridEfield", "src/planewave.c:incidentFieldAuxGrid", "src/planewave.c:decodeFaceMask"]}
{"id": "C72", "title": "Every run solves Maxwell's difference equations with the lengths, materials and currents of its mesh file", "statement": "In every run, at every electric sample in the mesh that is not in a MUR side, not in a dispersive block, not next to an impedance sheet or to a side of a plane wave's box, and not held by a field or voltage source: permittivity times the change of the field over the time step, plus conductivity times its mean, equals the rotation of the magnetic field minus the impressed current density, where lengths are those of the mesh lines, permittivity and conductivity those of what the sample is made of (last card wins), and the current density is the sum over the source cards containing the sample of the size on the card over the cross section (volume, thickness, resistance) of its box, times the waveform at the time minus the delay; in metal the field is zero. At magnetic samples Faraday's law holds in the same way with permeability and magnetic currents half a step later. In dispersive matter under exactly one dispersive block Ampere's law holds with the polarisation currents of the poles on the card, each of which obeys its own difference equation.", "quantifier": "every accepted mesh file, all mesh lines, media, wires, plates, sources and waveforms, every sample and every step", "why_tests_cant": "meshes, materials, sources and numbers of steps are unbounded", "anchors": ["src/grid.c:updateGridEfield", "src/grid.c:updateGridHfield", "src/grid.c:initCellEdges", "src/source.c:initSources", "src/source.c:updateSourcesEfield", "src/source.c:updateSourcesHfield", "src/debye.c:updateDebyeBlocksEfield", "src/medium.c:calcCoeffFromParam", "src/vulture.c:main"]}
{"id": "C73", "title": "What is far away or behind metal does not matter", "statement": "Compare two runs, possibly of different mesh files with different meshes, walls, contents and coordinates, and with different leftovers in memory, that use the same time step. If the files describe the n cells around a sample alike (materials, cell sizes, impressed currents), up to a shift of the coordinates, the field there is the same in both runs for n steps. If they describe alike a part of space enclosed by metal, the fields in it are the same in both runs for ever, whatever is outside. Files with the same Courant number and the same smallest cells use the same time step.", "quantifier": "every pair of accepted mesh files, every sample, distance, enclosed part and step", "why_tests_cant": "quantifies over pairs of files, all positions and unboundedly many steps", "anchors": ["src/grid.c:updateGridEfield", "src/grid.c:updateGridHfield", "src/grid.c:initCellEdges", "src/grid.c:setMediumOnGrid", "src/source.c:initSources", "src/vulture.c:main"]}
{"id": "C74", "title": "The order of cards matters only within a kind", "statement": "Take two accepted mesh files with the same header, the same declarations (media, boundaries, wire types, waveforms) in any order and the same blocks, surfaces, wires, sources and plane waves, each kind in the same order, but with the kinds mixed in any way and any OP cards. Both runs use the same time step and compute the same fields. An OP card of both files produces the same time file, and the same frequency file if both divide by the same waveform; if also the OP cards and the waveforms come in the same order, every output file is the same. Moving all declarations to the front of an accepted file gives an accepted file.", "quantifier": "every pair of accepted mesh files that differ only in the mixing of kinds of cards, every step and every output file", "why_tests_cant": "quantifies over all permutations of all accepted card lists and all steps of the run", "anchors": ["src/mesh.c:readMesh", "src/block.c:parseMB", "src/block.c:addBlock", "src/surface.c:parseTB", "src/line.c:parseTW", "src/source.c:parseEX", "src/planewave.c:parsePW", "src/medium.c:addMedium", "src/boundary.c:addBoundary", "src/waveform.c:parseWF"]}
{"id": "C75", "title": "Circuit laws: currents, charges, flux and voltages balance", "statement": "In every step of every run, for parts of the mesh where no dispersive block, sheet, plane wave side, MUR side or held field intervenes: the currents (displacement, conduction, impressed; in metal: the current a magnetic loop shows) that leave a node sum to zero; the charge of a node between insulators is what the impressed currents have brought, so it stays zero for ever without sources; the magnetic field along any rectangle through cell middles equals the sum of the currents through it; the magnetic flux out of every cell changes only by impressed magnetic currents, so it stays zero without them; and the voltage along any rectangle of mesh edges is minus the rate of change of the magnetic flux through it less the impressed magnetic currents. Lengths, areas, materials and sources are those of the mesh file.", "quantifier": "every accepted mesh file with increasing mesh lines, every node, cell and rectangle of any size, every step", "why_tests_cant": "quantifies over all meshes, materials, loops of all sizes and unboundedly many steps", "anchors": ["src/grid.c:updateGridEfield", "src/grid.c:updateGridHfield", "src/grid.c:initCellEdges", "src/grid.c:setMediumOnGrid", "src/medium.c:calcCoeffFromParam", "src/source.c:initSources", "src/source.c:updateSourcesEfield"]}
{"id": "C76", "title": "Sources that hold or add fields", "statement": "In every step of every run: a `=E`, `=H` or `=V` source sets each sample of its box (if no later source acts on it and no plane wave side touches it) to its size times the waveform at the delayed time of the sample, whatever the sample is made of (metal included); a `=V` source thereby holds the voltage along every line of its box at size times waveform, high end to low end, for any spacing of the mesh lines; soft `E`, `H` and `V` sources, and ideal lumped sources, are added on top of the field that Ampere's or Faraday's law gives with the impressed currents of the other sources; and a hard current source forgets the field: each step is Ampere's law starting from nothing, without the curl.", "quantifier": "every accepted mesh file, every source card, every sample in its box, every step, all other cards", "why_tests_cant": "quantifies over all mesh files, all interleavings of source cards on a sample, and unboundedly many steps", "anchors": ["src/source.c:initSources", "src/source.c:updateSourcesEfield", "src/source.c:updateSourcesHfield", "src/source.c:getElectricSourceSize", "src/simulation.c:propagate"]}
{"id": "C77", "title": "Any number of threads, any rounding: the same bits", "statement": "For every accepted mesh file, however the iterations of the parallel loops of every step (absorbing layers, MUR faces, main grid, plane wave corrections) are shared out among threads and interleaved, and whatever arithmetic computes each assignment from the values it reads (exact, single precision, fused, ...), the arrays after every step are the ones a single thread computes: two runs agree bit for bit. In exact arithmetic they are the fields all other properties speak of. Under rounding, too, nothing further away than one cell per step (one and a half with impedance sheets) influences a single bit, and a run without excitation stays zero if zeros (of either sign) produce zeros.", "quantifier": "every accepted mesh file, every schedule of every parallel loop in every step, every arithmetic, every number of steps", "why_tests_cant": "schedules and roundings cannot be enumerated; a race may show once in many runs", "anchors": ["src/simulation.c:propagate", "src/grid.c:updateGridEfield", "src/grid.c:updateGridHfield", "src/pml.c:updatePmlEfield", "src/pml.c:updatePmlHfield", "src/mur.c:updateMurEfield", "src/planewave.c:updatePlaneWavesEfield", "src/planewave.c:updatePlaneWavesHfield"]}
{"id": "C78", "title": "The comparison tool accepts exactly the tables that agree", "statement": "`pydiff valid test` succeeds exactly if the two tables have the same extents and every number of the test table lies within 1e-2 + 1e-5 |b| of the number b in the same place; it distinguishes marginal (status 2) and clear (status 1) mismatches.", "quantifier": "every pair of tables of numbers", "why_tests_cant": "the tool judges the tests themselves; all shapes and values must be considered", "anchors": ["util/pydiff.py", "tests/CMakeLists.txt"]}
{"id": "C79", "title": "Names are only names", "statement": "Giving the media, boundaries, wire types, waveforms, sources, plane waves and observers of a mesh file other names (different things different names; the names the program predefines or generates are kept) changes neither whether the file is accepted, nor the time step or any field at any step, nor the number, order or contents of the output files; only the names of the probe and waveform files follow the new names.", "quantifier": "every mesh file, accepted or not, every injective renaming that keeps the predefined names FREE_SPACE, PEC, PMC and the generated names of lumped resistors, every number of steps", "why_tests_cant": "names are looked up through hash tables, compared with predefined names and stored as numbers; a test sees a handful of names only", "anchors": ["src/medium.c:isMedium", "src/boundary.c:isBoundary", "src/waveform.c:isWaveform", "src/wire.c:isWireType", "src/source.c:parseEX", "src/observer.c:parseOP", "src/planewave.c:parsePW", "src/observer.c:initObservers"]}
{"id": "C80", "title": "Energy balance of any box of the mesh", "statement": "For every accepted mesh file and every box of the mesh whose inside consists of vacuum, metal and simple media with numbers in the documented ranges (sources that impress currents and lumped resistors may be inside; absorbing layers, dispersive blocks, impedance sheets, plane-wave boxes may be anywhere else): the energy inside the box (electric plus magnetic, with the volumes and materials of the file) at any step is exactly the work the impressed currents inside have done, less the ohmic heat developed inside, less the energy that has flowed out through the sides, which is the sum over the six sides of the normal component of E x H. Nothing flows through sides of metal.", "quantifier": "every accepted mesh file with increasing mesh lines, every such box, every step", "why_tests_cant": "the balance must hold for every geometry, every box and every history; a test compares a few numbers and a wrong coefficient next to a boundary may hide in rounding", "anchors": ["src/grid.c:updateGridEfield", "src/grid.c:updateGridHfield", "src/grid.c:initCellEdges", "src/medium.c:calcCoeffFromParam", "src/source.c:updateSourcesEfield", "src/source.c:updateSourcesHfield"]}
{"id": "C81", "title": "The sides of the mesh obey the law of their boundary type", "statement": "For every accepted mesh file, in the coordinates of the file and at every step: half a cell outside a PMC side the fields are minus their mirror images, outside a PEC side they are their mirror images, outside a PERIODIC side they are the fields one period away (edges and corners included); in a PEC side there is no tangential electric field unless a lumped source bridges it; in a MUR side the tangential electric field obeys the centred equation of waves leaving the mesh at the speed of light, with the size of the cell next to the side and the time step of the run, so when a wave crosses one cell per step the side takes over the neighbour's last value; where two MUR sides meet the field along the edge is zero. If the file says the same about both ends of a periodic axis, the fields in the two end planes are the same for ever.", "quantifier": "every accepted mesh file, every side and sample in it, every step", "why_tests_cant": "must hold for all sample positions on all sides, all corner combinations, all sizes of cells and all histories", "anchors": ["src/surface.c:updateGhostEfield", "src/surface.c:updateGhostHfield", "src/surface.c:initExternalPecPmcSurfaces", "src/mur.c:updateMurEfield", "src/mur.c:initMurBoundaries", "src/grid.c:setGridExtents"]}
{"id": "C82", "title": "Rounding errors in a cavity add up but are not amplified", "statement": "For every accepted mesh file of a closed cavity with a Courant number below one, and for every machine that clears the arrays, keeps samples in perfect conductors at zero and otherwise makes arbitrary errors in every step: the energy of the accumulated error is at most (1+cn)/(1-cn) times the energy obtained by simply adding up the errors of the single steps. So there is a number K, depending on the file only, such that errors of at most eta per sample and step lead to errors of at most K*n*eta after n steps; with pulses as waveforms, what the machine holds grows at most linearly, with a slope proportional to eta.", "quantifier": "every accepted mesh file of a cavity (media, plates, wires, currents, lumped sources), every sequence of rounding errors, every number of steps", "why_tests_cant": "must hold for all possible sequences of rounding errors and for runs of any length", "anchors": ["src/grid.c:updateGridEfield", "src/grid.c:updateGridHfield", "src/grid.c:initMediaArrays", "src/simulation.c:propagate", "src/fdtd_types.h:real"]}
{"id": "C83", "title": "Absorbing layers obey the stretched Maxwell equations with the profile of the file", "statement": "For every accepted mesh file with PML sides (parameters in their documented ranges, at least two cells along every axis with a low PML side), every number of steps and every sample of the layers outside the mesh that no sheet or wave box touches: the fields obey the centred difference form of the uniaxial PML equations, with D obeying the ordinary Ampere law of the material that continues from the mesh, D' = s_next P' and s_prev E' = s_own P' and the dual equations for H, where each s stretches the time derivative as kappa + sigma/(i omega eps0) with the polynomial profiles of the manual at the sample's own depth in the layers of that axis (no stretching between the layers). The electric field along the outermost plane is zero. With a reflection coefficient on the card, the continuous profile sends back exactly that part of a wave; without one, N layers send back exp(-8N/5).", "quantifier": "every accepted file, all sides, all profiles (order, layers, index, kmax), edges and corners where layers of several sides overlap, every step and sample", "why_tests_cant": "must hold for all profiles, materials and runs, and in the corners where two or three layers overlap; a wrong index or profile only raises reflections a little", "anchors": ["src/pml.c:updatePmlEfield", "src/pml.c:updatePmlHfield", "src/pml.c:setPmlParameters", "src/pml.c:pmlSigmaProfile", "src/pml.c:pmlKappaProfile", "src/pml.c:initPmlMaterialArrays", "doc/UserManual/UserManual.tex"]}
{"id": "C84", "title": "Plane waves between plates are one-dimensional", "statement": "For every accepted file that models a parallel-plate line along any axis (plates PEC or periodic across the electric field, sides PMC or periodic across the magnetic field, ends of any type, any number and sizes of cells, any simple materials that depend only on the position along the line, sources that drive only those two components uniformly over the cross section): in every step all other field components are exactly zero, in the mesh and in the absorbing layers; the two components depend only on the position along the line; they obey the two equations of a one-dimensional line; and two such models that say the same along their lines (directions, number and size of the cells across, PMC or periodic sides, PEC or periodic plates may differ) give the same waves, the magnetic field with the sign of the handedness of the axes.", "quantifier": "all accepted line models in all six orientations, all cross sections, end boundaries, materials, sources and steps", "why_tests_cant": "the test suite runs a handful of parallel-plate models of one cross section against analytic curves with tolerances; this holds for all cross sections and orientations exactly, through ghosts, absorbing layers and Mur ends", "anchors": ["src/surface.c:updateGhostEfield", "src/surface.c:updateGhostHfield", "src/grid.c:updateGridEfield", "src/grid.c:updateGridHfield", "src/pml.c:updatePmlEfield", "src/mur.c:updateMurEfield", "src/source.c:updateSourcesEfield", "doc/UserManual/UserManual.tex", "tests/parplate1D_empty_xyz"]}
{"id": "C85", "title": "A periodic model stands for an infinite row of copies", "statement": "For every accepted file whose sides across an axis are periodic and every accepted file that repeats it any number of times along that axis, beginning at any cell (the other sides, PEC, PMC, periodic, PML or MUR, the cells, the simple materials and the additive sources repeated likewise, the first and last cells along the axis of one size): in every step each sample of the large model, in the mesh and in the absorbing layers, equals the corresponding sample of the small one; in particular where the seam of a periodic model lies is unobservable and both its ends carry the same fields. If the first and the last cell differ in size, the two ends differ as soon as the magnetic field changes across the seam.", "quantifier": "all accepted periodic models, all three axes, all numbers of copies and shifts, all other sides, materials, sources and steps", "why_tests_cant": "a test compares one unit cell with one super cell; the claim is for all of them and all steps, through ghosts, layers and Mur sides", "anchors": ["src/surface.c:updateGhostEfield", "src/surface.c:updateGhostHfield", "src/grid.c:updateGridEfield", "src/grid.c:updateGridHfield", "src/grid.c:initCellEdges", "src/pml.c:updatePmlEfield", "src/mur.c:updateMurEfield", "doc/UserManual/UserManual.tex"]}
{"id": "C86", "title": "Models that do not change along an axis are two-dimensional", "statement": "For every accepted file whose materials and additive sources do not change along an axis, whose sides across that axis are periodic or plates (PEC if the driven electric field is along the axis, PMC if it is across it), with any other sides: in every step three components (the transverse electric and axial magnetic ones, or the other way round) are exactly zero everywhere, in the absorbing layers too, and the other three do not change along the axis. Two such files with the same cross section give exactly the same fields, however many cells of whatever sizes they have along the axis and whether the sides there are plates or periodic.", "quantifier": "all accepted uniform models, all axes, both polarisations, all numbers and sizes of cells along the axis, all other sides, materials, sources and steps", "why_tests_cant": "two-dimensional models are run as meshes one cell thick; no test can cover all thicknesses, materials, sources and steps", "anchors": ["src/surface.c:updateGhostEfield", "src/surface.c:updateGhostHfield", "src/surface.c:initExternalPecPmcSurfaces", "src/grid.c:updateGridEfield", "src/grid.c:updateGridHfield", "src/pml.c:updatePmlEfield", "src/mur.c:updateMurEfield", "doc/UserManual/UserManual.tex"]}
{"id": "C87", "title": "Closed models with conducting, magnetic and periodic sides keep their energy", "statement": "For every accepted file all of whose sides are PEC, PMC or periodic in any mixture, with cells of any sizes, simple materials, metal parts and additive currents anywhere: the energy in the mesh (samples in the sides counted with the part of their volume inside) changes in every step by exactly the work of the impressed currents less the heat developed in the conductivities, so it always equals all work done less all heat. Below the Courant limit (cn < 1) the stored energy stays below (1+cn)/(1-cn) of its value at any time after which no current is impressed; it is exactly conserved if nothing conducts; and if all waveforms are pulses no sample of the mesh ever leaves a fixed range.", "quantifier": "all accepted closed models, all mixtures of the three kinds of sides, all meshes, materials, currents, Courant numbers below one and all steps", "why_tests_cant": "stability and conservation for all times and all mixtures of sides and cell sizes; a test runs one model for finitely many steps", "anchors": ["src/surface.c:updateGhostEfield", "src/surface.c:updateGhostHfield", "src/surface.c:initExternalPecPmcSurfaces", "src/grid.c:updateGridEfield", "src/grid.c:updateGridHfield", "src/grid.c:initCellEdges", "src/grid.c:numericalPhaseVelocity", "doc/UserManual/UserManual.tex"]}
{"id": "C88", "title": "Reciprocity in closed models with conducting, magnetic and periodic sides", "statement": "For every two accepted files with the same mesh, sides (PEC, PMC or periodic in any mixture), materials and Courant number and any two sets of additive currents: up to every step the reaction of the fields of the first run on the currents of the second equals the reaction of the fields of the second on the currents of the first. In particular, if the only EX card, a current through one mesh edge, is moved to another edge, along any axis, the field at the new edge in the old run times its length is, in every step, the field at the old edge in the new run times its length; an edge in a magnetic side counts with one half for every such side, because half of its current is outside the mesh.", "quantifier": "all pairs of accepted closed models that differ in their currents, all mixtures of the three kinds of sides, all meshes, materials, edges, waveforms and steps", "why_tests_cant": "a relation between two runs for all pairs of edges, meshes and materials and all steps", "anchors": ["src/surface.c:updateGhostEfield", "src/surface.c:updateGhostHfield", "src/surface.c:initExternalPecPmcSurfaces", "src/grid.c:updateGridEfield", "src/grid.c:updateGridHfield", "src/source.c:initSources", "src/source.c:updateSourcesEfield", "doc/UserManual/UserManual.tex"]}
{"id": "C89", "title": "The small companion scripts agree with the program", "statement": "tdfdReadLines reads from xlines.dat, ylines.dat and zlines.dat of every run exactly the printed mesh lines, one more than there are cells, entry i being line i. tdfdGaussianPulse and tdfdCompactPulse, called with the width and delay of a WF card (or without, where the card leaves them out) on time samples one step apart, give in every sample the waveform of the program divided by its size. db10 is ten times the logarithm of its argument, never less than the least value, db20 of an amplitude is db10 of its square, and both are monotone.", "quantifier": "all accepted models and axes, all printed number formats, all waveform cards and lists of time samples, all real arguments", "why_tests_cant": "all mesh sizes, formats, parameters and times; a script and the program must agree as functions", "anchors": ["src/grid.c:writeLines", "m/tdfdReadLines.m", "m/tdfdGaussianPulse.m", "m/tdfdCompactPulse.m", "m/db10.m", "m/db20.m", "src/waveform.c:gaussianPulse", "src/waveform.c:compactPulse"]}
{"id": "C90", "title": "Dispersive media are passive, and closed models that contain them stay stable", "statement": "In a medium of any number of poles each of which takes energy from fields of all frequencies (Debye and Lorentz poles alike), an edge never gives back more energy than it has taken: up to any step the work of the field on the polarisation current - the current that the curl of the magnetic field shows, less displacement and conduction current - is not negative. In a model with conducting, magnetic and periodic sides made of metal, ordinary matter and such media the energy in the fields never exceeds the work of the impressed currents less the ohmic heat; below the Courant limit the fields stay bounded for ever if the currents fade away, in particular when they are pulses.", "quantifier": "all closed models, all numbers of poles, residues and poles with non-negative absorption at every frequency, all waveforms, all steps", "why_tests_cant": "all meshes, media and infinitely many steps; stability is a statement about the limit", "anchors": ["src/debye.c:updateDebyeBlocksEfield", "src/medium.c:calcCoeffFromParam", "src/medium.c:updateSimpleMedium", "src/grid.c:updateGridEfield", "src/grid.c:updateGridHfield", "doc/UserManual/UserManual.tex"]}
{"id": "C91", "title": "Poynting's theorem around passive dispersive media", "statement": "In any box of the mesh, inside any model, whose edges are vacuum, ordinary matter, metal or media with passive poles (a food, a plasma, a resonant dielectric), the energy in the fields at any time plus the energy that the media hold plus all they have lost is the work of the currents in the box less the ohmic heat less what has flowed out through the sides; what the media hold and lose is never negative. So the energy in the fields never exceeds work less heat less outflow, and through a closed surface around a passive object without sources no more energy comes out, up to any step, than has gone in less the heat and the energy still in the fields inside.", "quantifier": "all boxes, all models around them (absorbing sides, plane waves and sheets outside the box included), all numbers of passive poles, all steps", "why_tests_cant": "all meshes, media, surroundings and numbers of steps", "anchors": ["src/debye.c:updateDebyeBlocksEfield", "src/grid.c:updateGridEfield", "src/grid.c:updateGridHfield", "src/medium.c:calcCoeffFromParam"]}
{"id": "C92", "title": "Reciprocity with dispersive media", "statement": "In two files that describe the same closed body - conducting, magnetic and periodic sides; metal, ordinary matter and dispersive media of any number of poles, real or complex, none in the right half plane - but different impressed currents, the reaction of the fields of one run on the currents of the other, summed over the mesh and over all pairs of times that add up to the same, is equal both ways in every step. In particular source and probe may be exchanged: the voltage that a current through one edge makes along another edge is, step by step, the voltage that the same current through the second makes along the first, whatever dispersive objects stand between them.", "quantifier": "all closed models, all residues and poles, all currents, all pairs of edges, all steps", "why_tests_cant": "all meshes, media, places and numbers of steps; a mistake in the order of the pole updates of a few per mille would pass any tolerance", "anchors": ["src/debye.c:updateDebyeBlocksEfield", "src/grid.c:updateGridEfield", "src/grid.c:updateGridHfield", "src/source.c:updateSourcesEfield"]}
{"id": "C93", "title": "Closed models with losses ring down", "statement": "In a closed model - conducting, magnetic and periodic sides; metal, matter and passive dispersive media - below the Courant limit whose impressed currents fade away (all pulses do), only a finite amount of heat is ever developed, and wherever the static conductivity is above zero the mean of the electric field over a step tends to zero. If every edge of the mesh is metal or conducts, however badly, every electric field of the run tends to zero, the curl of the magnetic field tends to zero in all matter, and the change of every magnetic field from step to step tends to zero: the run comes to rest, and a run that is long enough ends with fields below any threshold.", "quantifier": "all closed models with losses, all fading currents, all samples", "why_tests_cant": "it is a statement about the limit of infinitely many steps, for every mesh and every conductivity above zero", "anchors": ["src/simulation.c:propagate", "src/grid.c:updateGridEfield", "src/grid.c:updateGridHfield", "src/medium.c:calcCoeffFromParam", "src/waveform.c:getWaveformValue"]}
{"id": "C94", "title": "The Gmsh export shows the mesh file", "statement": "For every accepted mesh file whose plane waves stand in boxes with an extent along all axes and whose observers have positive distances between their nodes, the Gmsh export (gvulture -m) ends and writes a file whose elements are exactly one element for each unit cell of each block, sheet, wire, source box, active plane-wave face and (unless switched off) side of the mesh, and one point for each output node of each observer: of the right element type, in the group named after the card's medium, boundary, wire, source, wave or observer (or the side), with corners in Gmsh's order at the coordinates of the mesh lines (or their indices). Element, entity and group numbers run from one, node numbers are distinct, every node written stands at a mesh node and is used, and a group name has one number and one dimension. A plane wave in a flat box stops the export with an assertion, an observer with a zero distance keeps it from ending, although both files are accepted.", "quantifier": "all accepted mesh files, mesh sizes, mesh lines, numbers and histories of cards, both unit options, with and without the sides", "why_tests_cant": "all files and sizes; the picture is a relation between a whole input file and a whole output file", "anchors": ["src/gvulture.c:main", "src/gmsh.c:gmshMesh", "src/gmsh.c:gmshWrite", "src/block.c:gmshBlocks", "src/line.c:gmshLines", "src/surface.c:gmshInternalSurfaces", "src/surface.c:gmshExternalSurfaces", "src/source.c:gmshSources", "src/planewave.c:gmshPlaneWaves", "src/observer.c:gmshObservers", "src/grid.c:getMeshNodeCoords"]}
{"id": "C95", "title": "The gvulture command draws what its options and its mesh file ask for", "statement": "gvulture understands each option by its letter or its word, no argument asks for two, and the order and repetition of options do not matter except that the last of -g and -m counts: coordinates are shown exactly if -p is given, the sides of the mesh unless -e is, in Gmsh form exactly if -m is the last choice; help and version end it with status 0, an unknown option, a rejected or unreadable mesh file with a non-zero one. For every accepted mesh file whose waves come from azimuths below 360 degrees and whose observers have positive distances, the eight gnuplot files show exactly the mesh edges, the mesh lines at the back, the edges of the boxes of the TB, MB, TW, EX and PW cards, an arrow along the field of every source, the three arrows of every wave, the marks of the ranges, and one point per recorded node; and with the sides shown and an observer in the file the script plots exactly the files that have something to show. A wave from an azimuth of exactly 360 degrees stops the export with an assertion, an observer with a zero distance keeps it from ending, and without an observer the plot command swallows the next line of the script, although these files are accepted.", "quantifier": "every command line, every mesh file, mesh line coordinates and unit choice", "why_tests_cant": "Tests draw a few files with a few options; the claim is about every list of arguments and every set of cards, and that nothing else is drawn.", "anchors": ["src/gvulture.c:main", "src/gvulture.c:parseOption", "src/gnuplot.c:gnuplotMesh", "src/gnuplot.c:gnuplotScript", "src/gnuplot.c:gnuplotBoundingBox", "src/gnuplot.c:gnuplotBoundingBoxArrow", "src/planewave.c:gnuplotPlaneWaves", "src/observer.c:gnuplotObservers", "src/source.c:gnuplotSources", "src/surface.c:gnuplotExternalSurfaces", "src/grid.c:gnuplotGridLines"]}
{"id": "C96", "title": "The grid dump shows what the mesh is made of", "statement": "vulture -g writes one file per field component with one character for every sample of the grid, its absorbing layers and one cell more, at a place given by a simple formula, reading nothing outside the arrays. Every sample the mesh file makes of vacuum is a dot, every one it makes of metal a star in the files of the electric field and a dot in the others, and a dielectric, lossy or magnetic material an 'o' unless its coefficients are within the absolute tolerance 1e-6 of those of vacuum (or, for conductors, of metal): so a conductor of 2 MS/m or more with a long enough step is a star, and on every mesh whose time step is at most 1.25 ps, in particular with any cell of 0.37 mm or less and a Courant number up to one, magnetic matter of whatever permeability is shown as vacuum. A line ends with its characters except that the last and the first row of cells carry their number and the middle row that of the plane, counted from 1 at the outer face of the absorbing layers.", "quantifier": "every mesh file the program accepts, every sample of the mesh", "why_tests_cant": "Tests look at a few dumps; the claim is about every sample of every accepted file, all materials and all meshes.", "anchors": ["src/grid.c:dumpMediaOnGrid", "src/grid.c:decodeAlphaBeta", "src/grid.c:decodeGamma", "src/vulture.c:main"]}
{"id": "C97", "title": "The vulture command does what its options say", "statement": "Every option of vulture is understood by its letter and by its word, no argument means two options, -h, -V and -l (or --licence alone) print and exit with status 0, an unknown option or a thread count that is not a number different from zero exits with status 1, and order, repetition, verbosity and thread count do not change the outcome. Without -m and -p the program ends with status 0 exactly if the simulation described by the mesh file ends, and leaves exactly its files; -g adds the six dump files and changes no other. -m writes no file, accepts every mesh that runs, and whatever it rejects is always rejected; but it accepts some meshes that the run rejects, such as one with a sheet that supplies power. -p accepts what runs, and what it accepts runs unless the number of steps or of a probe's stride is zero or negative; it opens the same files as the run, so the results of an earlier run in the same directory are lost, and leaves them without samples.", "quantifier": "every command line, every mesh file and the files it names", "why_tests_cant": "Tests try a few command lines on a few files; the claim is about all rows of options and all texts.", "anchors": ["src/vulture.c:main", "src/vulture.c:parseOption", "src/observer.c:initObservers", "src/observer.c:deallocObservers", "src/mesh.c:readMesh", "src/sibc.c:initSibcBoundary"]}
{"id": "C98", "title": "Sources that start later give the same results, later", "statement": "Adding the same delay of M whole time steps to every EX and PW card of a mesh file leaves it accepted, with the same grid and time step. When the waveforms are zero before time zero, no delay is negative, and there are no plane waves or the mesh is cubic, nothing at all happens in the first M steps and from then on every field value is the one the original run has M steps earlier. So, run M steps longer, the file of every time-domain observer holds zeros for M steps and then the original numbers, and with the same list of frequencies and a waveform that has ended with the original run, the file of every frequency-domain observer holds the original transfer function turned by exp(-j 2 pi f M dt).", "quantifier": "every accepted mesh file, every set of waveforms that are zero before time zero, every whole number of steps, every step of the run and every ASCII observer", "why_tests_cant": "It compares two whole runs for every mesh, medium, boundary and delay; a test can compare two finished runs of one mesh.", "anchors": ["src/source.c: parseEX, updateSourcesEfield, updateSourcesHfield", "src/planewave.c: parsePW", "src/waveform.c: getWaveformValue, compactPulse", "src/observer.c: updateObservers", "src/simulation.c: propagate"]}
{"id": "C99", "title": "Effects do not come before their causes", "statement": "Change the waveforms of an accepted mesh file in any way after time (n - 1/2) dt. The file stays accepted with the same grid and time step, every field value before steps 0 to n is the same, and so is every line of a time-domain observer for a recorded step up to n: what has been computed never depends on what a source does later. (No negative delays; no plane waves or a cubic mesh.) What a source does is another matter: the value of a tabulated waveform between two entries depends on all the entries of the table, also on later ones, because one spline runs through all of them.", "quantifier": "every accepted mesh file, every two sets of waveforms that agree up to a time, every step up to it and every ASCII time-domain observer", "why_tests_cant": "It ranges over all ways a waveform can go on and over all meshes and media; a test compares two of them.", "anchors": ["src/simulation.c: propagate", "src/source.c: updateSourcesEfield, updateSourcesHfield", "src/waveform.c: getWaveformValue, createSplines, evalSpline", "src/observer.c: updateObservers"]}
{"id": "C100", "title": "Asking for other frequencies or another window changes no number", "statement": "Run an accepted mesh file for the same number of steps with another OF card: the run leaves files of the same names, those that are not spectra are the same, and two spectra have the same numbers in the rows of equal frequency. Run it with an OT card instead of without one: the file of every time-domain observer holds exactly the lines whose step lies in the window.", "quantifier": "every accepted mesh file, number of steps, pair of frequency lists, window and every output file", "why_tests_cant": "It compares whole runs over all meshes, all lists of frequencies and all windows.", "anchors": ["src/observer.c: parseOF, parseOT, initObservers, updateObservers, updateObserverAsciiFreq, deallocObserverAsciiFreq"]}
{"id": "C101", "title": "What a probe on a far side of the mesh records", "statement": "A probe may stand on the last node of an axis. Of the six numbers recorded there, the electric field along the axis and the magnetic field across it belong to samples half a cell outside the mesh: on a PEC side they are, in every line, those recorded one node further inside; on a PMC side minus those; on a PERIODIC side those recorded at the opposite node. On a MUR side, in a file without impedance sheets and plane waves, they are zero in every line. The spectra of frequency-domain probes obey the same at every frequency where their waveform has something. They are not the fields at the side.", "quantifier": "every accepted mesh file, axis and time-domain probe on its last node, every recorded step", "why_tests_cant": "It holds for every mesh content, source and step; a test compares the files of one run.", "anchors": ["src/observer.c: parseOP, updateObserverAsciiTime", "src/surface.c: updateGhostEfield, updateGhostHfield"]}
