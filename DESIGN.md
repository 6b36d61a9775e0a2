# A Lean 4 model of litevideo

## 1. Approach

litevideo is a library of synchronous circuits written in Migen.  A circuit is a
deterministic Mealy machine: registers with a reset value, one `sync` block per
clock, combinational outputs.  The model follows this shape, module by module:

* a structure holding the registers of the module (`State`), its reset value,
* a structure for the module's inputs during one clock (`In`),
* combinational outputs as functions of `State` (and `In`),
* `step : State -> In -> State`, one rising edge.

An execution is `trace step s0 i : Nat -> State` for an input sequence
`i : Nat -> In` (`Verif/Machine.lean`).  Theorems quantify over *every* `i`, so
over every data sequence, every valid/ready schedule and every history, with no
bound on length.

Migen semantics used:

* right-hand sides read the values before the edge; in a `sync` block the last
  assignment executed wins;
* expressions are evaluated as unbounded integers and truncated (two's
  complement, sign according to the target) when assigned, as in the Migen
  simulator;
* registers start at 0 unless `reset=` is given.

Directory layout (`lean/Verif/`):

* `Machine.lean`, `Bits.lean`, `Stream.lean`: generic machinery;
* `Model/*.lean`: the model; every definition cites file and lines of `/repo`;
* `Spec/*.lean`: small independent specifications used in property statements;
* `Proofs/*.lean`: helper lemmas;
* `Props/*.lean`: the property theorems `Cxx_...`, each followed by `example`s
  showing that its hypotheses are met by a concrete non-trivial case.

## 2. Trusted base

* Lean 4.33.0's kernel.  Every theorem depends at most on `propext`,
  `Classical.choice`, `Quot.sound` (`#print axioms`).  No axiom is added; no
  `sorry`, `native_decide`, `bv_decide`.  `decide`/`decide +kernel` is used only
  over whole finite domains (e.g. all 256 bytes times all reachable disparities)
  or for concrete witnesses, and is evaluated by the kernel.
* The hand translation of the Python into `Model/`.
* The Migen semantics above.  Where the simulator and generated Verilog differ
  (comparison with `x-1` when `x=0`, negative shift amounts) the theorems either
  exclude the case by hypothesis or state which reading is used.
* Assumed behaviour of dependencies that are not in `/repo`:
  LiteX `PipelinedActor` (valid shift register of length `latency`, clock enable
  `ready | ~valid_last`), `stream.SyncFIFO`/`AsyncFIFO` (bounded FIFO queues; for
  `AsyncFIFO` with arbitrary transfer delay; C100 derives this from the circuit of
  Migen's `AsyncFIFO` as assumed in `Model/GrayFifo`), Migen `FSM`, `Memory` ports,
  `MultiReg`, `PulseSynchronizer`, `BusSynchronizer` (with a register between the pulse and
  its way back, `Model/BusSync`), CSR registers, LiteDRAM DMA engines (in-order,
  arbitrary latency).

The serializing primitives are assumed to keep their documented bit order: a width-5
`OSERDES2` pair sends D1 to D4 of the slave and then D1 of the master; a width-10
`OSERDESE2` pair sends D1 to D8 of the master and then D3, D4 of the slave; `ISERDES2`
and `ISERDESE2` deliver successive groups of 5 and 8 bits of the pair in the order in
which the code wires them (`S6Receives`, `S7Receives` in `Props/Link`); an `ODDR2` shows
D0 while its clock is high and D1 while it is low.  Constant latencies of primitives are
part of the line delay.  Migen's `Gearbox` is assumed to be a ring of 80 bits
(`Model/Gearbox`).

A PLL or MMCM is assumed to divide its oscillator by the given dividers (`Model/ClockTree`).

Not modelled: the inside of vendor primitives (PLL, MMCM, analogue side of SERDES, IODELAY, DCM,
buffers), electrical behaviour, metastability, CSR bus decoding, documentation
and bench files.  File by file:

| file (litevideo/) | modelled in | not modelled |
|---|---|---|
| `input/common.py` | `Model/Decoding` (tokens), `Model/ChanSync` (channel layout) | |
| `input/decoding.py` | `Model/Decoding`, `Model/Terc4` | |
| `input/charsync.py` | `Model/CharSync`, `Model/Status` (status CSRs) | |
| `input/wer.py` | `Model/Wer` | |
| `input/chansync.py` | `Model/ChanSync`, `Model/Status` (status CSR) | |
| `input/analysis.py` | `Model/Analysis`, `Model/Frame`, `Model/GrayFifo` (FIFO), `Model/CaptureCdc`, `Model/Status` (status CSRs), `Model/RawCopies` (`c0`, `c1`, `c2`) | |
| `input/dma.py` | `Model/Dma` | LiteDRAM port (assumed in-order) |
| `input/edid.py` | `Model/Edid` | electrical bus (open drain is modelled as a wired AND) |
| `input/datacapture.py` | `Model/DataCapture`, `Model/Gearbox`, `Model/BusSync` | input buffers, IODELAY, ISERDES |
| `input/clocking.py` | `Model/Clocking` (ready flags), `Model/ClockTree` (parameters, resets) | inside of PLL, MMCM; buffers |
| `input/__init__.py` | `Model/HdmiIn`, `Model/HdmiCdc` (with the FIFO circuit), `Model/Receiver`, `Model/Capture`, `Model/Terc4` and `Model/HdmiMode` (hdmi=True) | clock resources |
| `output/common.py`, `output/core.py` | `Model/Output`, `Model/Initiator`, `Model/InitiatorCdc`, `Model/CoreCdc`, `Model/UnderflowCdc` | LiteDRAM port (assumed in-order) |
| `output/__init__.py`, `output/driver.py` | `Model/VideoOut` | device family selection |
| `output/pattern.py` | `Model/Pattern` | |
| `output/hdmi/encoder.py` | `Model/Encoder` | |
| `output/hdmi/s6.py`, `s7.py` | `Model/Clocking` (programming interface, ready flags), `Model/OutputReset` (reset of the pixel clock domain), `Model/VideoOut` (PHY wiring), `Model/Serializer`, `Model/ClockTree` (parameters) | inside of PLL, DCM, MMCM; buffers |
| `csc/*.py` | `Model/Csc`, `Model/Resample` (every width), `Model/RgbFloat` | |
| `float_arithmetic/*.py` | `Model/Float` | |
| `terminal/core.py` | `Model/Terminal` | `get_path` (file lookup) |
| `*/test/*.py`, `setup.py` | | all |

## 3. Plan per property

| id | modelled | proof |
|----|----------|-------|
| C01 | Encoder (4 pipeline stages), Decoding | stage-by-stage unfolding of the pipeline; per-word round trip for all 256 bytes and any disparity; induction over time |
| C02 | Encoder | invariant: `cnt` = ones - zeros of emitted words, even, in [-8,8] |
| C03 | Encoder, WER | word-level classification over all bytes and inversion choices, lifted to streams |
| C04 | WER | invariant over the period counter, counting function over a window |
| C05 | CharSync | bit-level lemma for every offset, induction on the run of tokens |
| C06 | CharSync on TMDS streams | transition-count argument: misaligned runs of matches are shorter than required_controls |
| C07 | CharSync | false of the code: `synced` is sticky; negation + what does hold |
| C08, C09 | `_SyncBuffer`, ChanSync | ring-buffer refinement to a delay line; invariant on delays |
| C10 | SyncPolarity | relational invariant between two executions |
| C11, C12 | ResolutionDetection | counter invariants |
| C13, C14, C15 | FrameExtraction | refinement to a list-packing specification; known deviation at frame starts that fall inside a word |
| C16, C17 | DMA, _SlotArray, _Slot | FSM invariants, write-log specification |
| C18, C19, C20 | EDID | refinement of the clock-level machine to one that steps once per bus sample, then to one that steps once per pulse, START or STOP of a master of arbitrary timing; bytes and transfers by induction; invariant on the FSM for C19; C19 is false for short set-up times, C20 is false (stuck SDA after hpd_en drops) |
| C73 | EDID | case analysis on the drive, sampling lemma |
| C21 | lateness accumulators, S7PhaseDetector | induction: inside the range or latched |
| C22 | DecodeTERC4(Channel) | FSM invariant against the phases of an HDMI source; soundness for arbitrary streams; false for pixels that look like the guard band |
| C76, C77 | HDMI path of HDMIIn, TERC4 table | composition with C22; C76 false in HDMI mode |
| C23, C24, C25 | CSC datapaths | exact integer evaluation with range invariants; linear arithmetic for the round trip |
| C26, C27, C28 | 444to422, 422to444 | pipeline unfolding; FIFO invariants |
| C29 | PipelinedActor with any datapath | generic elastic pipeline theorem |
| C30, C31 | FloatMult | arithmetic; C31 is false (stage 4 reads the next sample) |
| C32, C33 | FloatAdd | arithmetic; C33 is false (0+0 is 0x0800) |
| C34..C37 | rgb2rgb16f, rgb16f2rgb | arithmetic and whole-domain evaluation; C37 false; C36 false at 1.0 |
| C38 | TimingGenerator | closed form by induction over accepted cycles |
| C39, C40, C41, C42 | DMAReader, VideoOutCore | invariants; C41 false |
| C43, C44 | VideoOut, HDMI PHY routing | composition; C44 false (latency 6 against 7) |
| C45, C46 | patterns | closed forms |
| C47, C48, C49 | Terminal | closed forms of the counters; fetch pipeline invariant; C47 false as documented (801 clocks per line); C49 refinement to an array of bytes |
| C78, C79 | Terminal over two clocks, memory initialisation | C48 and C49 reduced to their clocks; case analysis |
| C80, C81, C82 | HDMIIn from the captured words to the resolution detector | lane by lane with C05, C03 and the decoder; C64 from an arbitrary state; C10, C11, C12, C04 |
| C50, C55 | S6HDMIOutClocking etc. | invariants |
| C51 | LeadOne | induction on width |
| C52 | composition | from C01 and C05 |
| C53 | FrameExtraction (rgb), AsyncFIFO, DMA over two clocks | reduction of each part to its own clock, queue conservation, C13, C14, C16 |
| C83 | the same, from an arbitrary state at rest, both modes | as C53 relative to that instant; the start-of-frame law of the packer; C13 in the mode |
| C84 | HDMIIn with memory port: receiver and capture path | C80 gives the video at the frame extractor up to a constant latency; C83 carried over to the transmitter's clock |
| C85 | VideoOutCore, encoders, lanes, HDMIIn with memory port | C40 gives raster video; raster video meets the hypotheses of C84 (arithmetic of line and frame numbers); a window of whole words between vertical syncs is the picture |
| C86 | capture pixel formats and output wiring | bit arithmetic; C44 for the ycbcr422 path; false in rgb mode |
| C87 | HDMIIn capture path | each phase of the DMA ends (distance of a start-of-frame word from the head of the FIFO, words remaining, LOADED slots as measures); then C83 |
| C88 | HDMIIn capture path | slot selection after a completed transfer; invariant of slot numbers |
| C89 | serializers of both families, S6 capture | per-bit arithmetic for all words and polarities; shift-register invariant; any clock schedule with two 2x edges per pixel clock |
| C90 | S7 capture, gearbox | invariant: the ring holds the latest 80 bits; polarity by bit algebra |
| C91 | everything from VideoOutCore to the receiver's memory | C85 for the transfer whose completion C87's progress lemma gives; the lanes are those of C89 and C90 |
| C92 | S7DataCapture delay control, tap counters | age of the latest command; the tap count is the expected one from age 3 on |
| C93 | WER over two clocks | C04 for the pixel clock; the count is taken at age 2 of the hand-over pulse, before the next hand-over |
| C94 | DMA slots, event manager | invariant: a slot is pending iff it finished or was marked pending with no status write since |
| C95 | MultiReg of a status CSR, with independent bits | induction over instants; false for several bits that change together |
| C96 | Receiver and status CSRs | C05/C80 lock lemmas and C81 for the sources, C95 for the crossing |
| C97 | HDMIIn capture path | the packer offers at most one word per `pf` pixel clocks; a turn of the bus takes a word; occupancy bounded by induction over busy periods |
| C98 | VideoOutCore | counting argument since the FIFO was last full: accepted reads against active pixels in a stretch of the raster, idle clocks of the reader once per frame |
| C99 | everything from VideoOutCore to the receiver's memory | C91 with its underflow and overflow hypotheses discharged by C98 and C97 |
| C100 | asynchronous FIFO circuit (Gray counters, MultiReg), capture path | invariant: each side knows the other counter as it was at most two of its clocks ago; Gray codes of successive numbers differ in one bit, so a sample is the old or the new one; refinement to the queue of `Model/AsyncFifo` |
| C101 | capture path with the FIFO circuit and the reset of the pixel clock domain | false: run in which a frame is completed with stale words; recovery by counting read clocks |
| C102 | HDMIIn, started in an arbitrary state | C05 and C64 from arbitrary states; C80, C81 are its instances for reset; period argument for the error counters |
| C103 | Initiator with the FIFO circuit | C100's invariant and liveness of the flags (`Proofs/GrayLive`); the queue is old sets followed by copies of the new one; `C103_consumes`: the core takes each set, since the counters are as wide as the scan registers |
| C104, C105 | VGAPHY behind VideoOutCore | C40 and C59; C105 false (data is not gated with `de`), the head of the FIFO in blanking is the next active pixel by counting |
| C106, C107 | VideoOutCore with the FIFO circuit, two clocks (`Model/CoreCdc`) | C103, a measure for the frame to end under any parameters, enough system clocks per frame to refill the FIFO, the raster by induction; C107 false (the reader goes on with its buffer), proved if the reader is idle with no words, which holds at reset and after a pause |
| C108 | S7PhaseDetector and accumulator behind a line sampled early or late (`Spec/Eye`) | each event has the right sign, so C21 gives the flags; false for late sampling: a periodic picture whose runs of nine equal bits give more wrong than right events, by induction over periods |
| C109, C110 | HDMIIn with damaged lanes | C05's argument with three TMDS words in a row among any seven; the minimum distance of pixel and control words is two (whole domain); C64 needs data-enable only |
| C111 | HDMIIn with one damaged clock | false: the lanes disagree on data-enable, by C64 up to the damage and one step of the channel synchroniser; what is proved instead (`C111_bounded_partial`): delivery before the damage, and from the first line end after another training on (prefix version of C112) |
| C112 | HDMIIn with damaged sync levels | what is shown of arbitrary words on agreeing lanes, by C64 and C10; as stated false: the first word after a line sets the polarity |
| C113 | HDMIIn capture path; everything from a video source to the receiver's memory | the word with which a transfer begins is the one read from the FIFO then; transfers that end later read later words, so their frame starts are later ones; C84's and C85's arithmetic with the frame number kept |
| C114 | the same with bit errors on the lanes | a film with errors in pixels arrives as another film (C109), to which C113 and C91 apply |
| C115 | HDMIIn capture path, any software | an invariant of a transfer that does not mention the slots after its beginning: address and remaining words are functions of what was in the slot then |
| C116 | DMA, any software | **violated**; the same invariant shows that the block is filled, and the slot stays current as long as software leaves it alone |
| C117 | HDMIIn capture path, any software | C115 from the end of the transfer on: later writes go to memory lent later |
| C118 | PLL outputs as counters of one oscillator, reset synchronisers, S6 and S7 capture | closed form of the number of clocks since lock; arithmetic for all phases; then C89 and C90 |
| C119 | parameters of all clock generators | rational arithmetic |
| C120 | parameters of the 7-series clock generators | **violated**; rational arithmetic |
| C121 | bus synchronisers behind the delay lines; bits may be caught early when both clocks have an edge | invariant: one pulse circulates and the timeout never fires; then C92 |
| C54 | S6DataCapture busy flags | refinement to a five-stage machine under arbitrary clock edges; safety by induction, clearing by fairness of the clocks |
| C122 | S6DataCapture delay control, `_dly_ctl` bits to the inputs of the delay lines | on the stages of C54: commands asked for = commands passed on, then the one under way; resets by the age of the last one |
| C123 | HDMIIn with hdmi=True and a memory port, DVI mode | simulation by the receiver of C80 one clock behind; then the capture lemmas of C84 |
| C124 | copies `c0`, `c1`, `c2` of the received words in the clock domain `pix_o` | words behind the channel aligner (lemmas of C112), sampled in step |
| C125 | EDID: hot-plug register and enable | idle state machine keeps its outputs |
| C126 | capture path with the FIFO circuit, data rate | accounts of a window of `W` system clocks: refused, taken, spent at the end of a transfer; at most one end of transfer per window since `B` is at most a frame; C100 bounds the latency of both flags; the liveness of C87 is derived from the rate instead of assumed (`Moves`) |
| C127 | whole HDMI input with the FIFO circuit | `Model/HdmiCdc`; its receiver and capture path are those of `Model/HdmiIn` with the flags of the circuit as inputs, so the lemmas of C113, C114 and C91 apply; overflow and progress from C126; notions restated on the registers of the circuit (`Spec/Cdc`) |
| C128 | output core, link, whole HDMI input with the FIFO circuit | composition of C98, C89/C90 and C127; without bit errors the film that arrives is the one that was sent |
| C129 | lane (charsync), word error counter and its register interface | isolated wrong bits leave three TMDS words in a row among any seven, so the alignment holds (C109); then C93 with the words as received, control words with a flipped bit checked in full |
| C130 | whole HDMI input with the FIFO circuit and the reset of the pixel clock domain | from the end of the reset on the run agrees, but for the FIFO, with a run from power-up of the input with a queue, whose first two instants write the slots and whose flags hide nothing until the FIFO has drained; the circuit is settled then (C101) and from then on both agree with the queue empty at first, so the argument of C127 applies to that run |
| C131 | VideoOutCore with the FIFO circuit and the reset of the pixel clock domain (`Model/OutputReset`) | false: run in which a disabled output shows a frame again; if the reset is held with `enable` set the FIFO is full at the end, a state that an empty FIFO reaches in sixteen instants, so C103 and C106 apply; with `enable` clear the distance of the counters bounds the frames |
| C132 | underflow counter with its registers and both clocks (`Model/UnderflowCdc`) | the enable reaches the counter as a register of the system clock, seen bit by bit at a common edge: there the counter goes from 0 to 0 or 1 only; age of the pulse of the request; induction over instants |
| C133 | HDMI receiver with `hdmi=True` (`Model/HdmiMode`) from serial lanes | the lanes and ChanSync are those of the plain receiver, whose locking (C102) is proved at the level of words: control periods are its blanking; guard bands and TERC4 words are no tokens and have few transitions; the path behind then receives a conforming source, so C22, C76 and C77 apply |
| C134 | HDMI receiver with `hdmi=True` from serial lanes | false: the syncs in data islands are ignored, a source whose hsync pulses lie in data islands gives an output without hsync; exact levels at the output from the recursion of SyncPolarity over the words after lock |
| C135 | the whole HDMI input with `hdmi=True`, from serial lanes to memory | false because of C76: a source of one colour leaves another colour in memory; with the colours of the source one word early the video after the receiver is the source's, later by a fixed latency, and the theorem of C84 about frames and memory applies |
| C136 | resolution detector behind the receiver with `hdmi=True` | data-enable and vertical sync of C135 are those of the source, later by a fixed latency; C11 for the counters |
| C137 | the whole HDMI input with `hdmi=True` | progress of the DMA (as C91) for the video of C135, with the order of frames of C113 |
| C74, C75 | data capture: phase flags over the clock crossing, deserialiser | pulse-age invariant and C21; C74 false right after the reset; induction on edges |
| C56, C57 | VideoOutCore | word conservation and parameter order; C57 false after a mode change |
| C58 | pattern generators | false: they do not obey back-pressure; exact relation of offered and taken pixels |
| C59 | VGAPHY | bit slicing, monotonicity |
| C60 | VideoOutCore, VideoOut, Encoder, Decoding | composition of C40/C42, C43 and C01 |
| C61 | DMAReader with genlock | invariants on the FSM and the edge detector, liveness by contradiction |
| C62, C63 | Initiator over AsyncFIFO | queue conservation with arbitrary clocks and flag lag; again with the circuit of C100; C63 false |
| C64, C65 | ChanSync | delay-line invariant from arbitrary states; C65 false right after reset |
| C66 | FrameExtraction overflow logic, PulseSynchronizer | handshake stages under arbitrary clock edges; false for a loss during the handshake |
| C68 | FrameExtraction overflow logic | the stages of C66 with what each stage has cleared |
| C67 | FrameExtraction | packing refinement; false for one pixel per word |
| C72 | DMA | transfer invariant of C16 |
| C69, C70, C71 | DMA, _SlotArray | transfer invariant of C16; all three false, with witnesses; C70 holds for frames of at least `frame_size` words (`C70_long_frames_partial`) |

Where the code violates a property, the full statement is kept as a Lean
proposition, its negation is proved with a concrete witness, and what does hold
is proved under the suffix `_partial`.


## 4. Findings: where the code violates a property a user would expect

Each line names the theorem that proves it about the model.

* `C07_violated`: `CharSync` never lowers `synced` again.
* `C30_violated`: the half-float product is wrong for results with exponent
  field 1.  `C31_violated`: for back-to-back pairs stage 4 of the multiplier
  shifts the product of the following pair.
* `C33_violated`: the half-float adder returns `2^-13` for `0+0` and is wrong for
  subnormals.  Adder and multiplier ignore signs.
* `C36_violated`: `RGB16f2RGB` is wrong at exactly 1.0.
* `C37_violated`: `RGB2RGB16f` does not return `pixel/256`.
* `C41_violated`: when the frame-buffer base changes, the words already
  prefetched from the old buffer are shown at the start of the next frame.
* `C44_violated`: the ycbcr422 path delays data-enable by 6 clocks and the pixels
  by 7, so the picture is one pixel off its window.
* `C86_rgb_violated`: capture stores `0x00RRGGBB`, the output reads red from the
  low byte; a captured frame is displayed with red and blue exchanged.
* `C45_drift`: the colour bars drift from line to line when `hres` is not a
  multiple of 8.  `C46_dots_odd`: odd `hres` gives no checkerboard.
* `C57_violated`: in raw mode a blanking beat is sent although no memory word has
  arrived, so the following words are misplaced.
* `C58_violated`: the pattern generators do not hold the offered pixel under
  back-pressure.
* `C61_overrun`: a genlock `delay_base` not below the buffer length makes the
  reader run past the end of the buffer.
* `C63_violated`: rewriting the parameter CSRs one by one while enabled lets
  mixed sets reach the core.
* `C13_violated`: when the number of pixels of a frame is one less than a multiple
  of the pixels per word, a stale word is emitted at the start of the next frame.
* `C65_violated`: `ChanSync` reports `chan_synced` right after reset, because the
  empty buffers look like control words on all channels.
* `C66_violated`: a capture word lost between software's overflow reset and its
  arrival in the pixel clock domain is never reported.  `C66_double_reset`: two
  resets between two pixel clock edges mask the overflow flag forever.
* `C67_violated`: with one pixel per memory word every other pixel is lost.
* `C69_violated`: with a `frame_size` below one memory word (the reset value is 0)
  the DMA writes to every address of the memory instead of none.
* `C70_violated`: a frame shorter than `frame_size` is completed with the start of
  the next frame.
* `C71_violated`: at the clock after a transfer the finished slot can still be the
  current one; a frame starting at that clock is dropped although another slot is
  LOADED.
* `C88_starved`: with three or more slots a LOADED slot waits for ever if software
  reloads the two lowest slots in time (two slots, the default, cannot starve).
* `C19_violated`: if SDA falls less than a sampling period (64 clocks) before SCL
  rises, `EDID` takes this for a START that does not restart its bit counter, and
  can acknowledge although no START was made.
* `C20_violated`: if software drops the hot-plug enable while `EDID` sends a 0, it
  holds SDA low for ever.  `C20_fast_clock`: the same happens, without software,
  if the master's SCL low phase contains only one sample.
* `EDID` ignores STOP conditions altogether: a transfer ends only by a START or by
  the master not acknowledging (visible in the model; C18 and C19 do not rely on
  STOP).
* `C74_violated`: phase flags read directly after a phase reset are those of the
  time before, until the reset has crossed to the capture clock and the flags back.
* `C54_overlap`: a delay step requested while the busy flag still reads 1 is not
  covered by the flag (a limitation, not a violation: software has to wait).
* `C22_violated`: pixels at the start of a line whose code words equal the video
  guard band (colour red 0xAB, green 0x55, blue 0xAB) are taken for the guard band
  and lost.  If a whole line has that colour, the control word after it is taken
  for a pixel (`C22_periods_partial`).
* `C76_violated`: with `hdmi=True`, data-enable is derived with a latency of 2
  clocks but the pixels are delayed by 1, so each line loses its first pixel and
  ends with a control word.
* `C134_violated`: with `hdmi=True` and not in DVI mode, `SyncPolarity` still takes the
  syncs from control words only.  During data islands HDMI sends them in the nibbles of
  channel 0, which are ignored: sync edges in a data island appear after it, and a pulse
  that lies in a data island is lost (`C134_lost`).
* `C135_violated`: because of `C76_violated`, a source that sends only pixels of colour
  `0x40AF10` leaves a pixel `0xFDFDFD` at the end of the line in memory.
* `C95_violated`: multi-bit status registers (resolution, bit offset) cross to the
  system clock bit by bit (`MultiReg`), so a resolution changing from 1023 to 1024
  can be read as 2047.  A value stable over two system clocks is read correctly.
* `C101_violated`: when the input clock is lost, the reset of the pixel clock domain
  clears the write counter of the capture FIFO but not its read counter.  The system
  side then takes up to `2 * depth - 1` stale words for new (`C101_stale`); if a
  transfer is in progress the DMA completes the frame with them and marks the slot as
  done (`C101_lost`).  Software can avoid it by not having a slot loaded until the FIFO
  has drained (`C101_discards_partial`).
* `C105_violated`: `VGAPHY` does not use the data-enable, so during blanking the colour
  pads show the next active pixel instead of black (`C105_next_pixel`).  They are black
  if the first column of the picture is (`C105_black_column_partial`).
* `C107_violated`: when the output is disabled the timing generator is cleared as soon
  as the parameter FIFO is empty, but the memory reader goes on with its buffer, whose
  words are discarded.  If the output is enabled again before the reader has finished,
  the picture starts in the middle of the frame buffer, and stays shifted.  (The length
  of that buffer is then read from the slot at the head of the empty FIFO; a slot that
  was never written gives length 0, that is, the whole address space.)  It is right after
  a reset (`C107_first`) and after a long enough pause (`C107_pause_partial`).
* `C131_violated`: on 7-series devices the pixel clock domain is reset while the MMCM is
  not locked, that is, whenever software changes the pixel clock.  This clears the read
  counter of the parameter FIFO but not its write counter, so sets that were used already
  appear again.  An output that software has disabled, and that has stopped, then shows up
  to seven more frames with old parameters (`C131_bounded_partial`, `C131_stops_partial`), and a new mode is
  preceded by them.  Software avoids it by keeping `enable` set during the reset: then at
  most four frames have old parameters, and the output is right from then on
  (`C131_recovers_partial`).
* `C108_violated`: the 7-series phase detector compares the eight bits of the master with
  those of the slave as a whole.  A late sampler sees them equal in a run of nine equal
  bits, and then counts in the wrong direction.  TMDS has runs of up to 22 bits; with some
  pictures the wrong counts outweigh the right ones, and late sampling is reported as
  early.  It cannot happen for early sampling (`C108_early_partial`) and on lines without
  such runs, for instance in blanking (`C108_late_partial`).
* `C111_violated`: one wrong bit in a control word on one lane makes that lane look
  active.  The channel synchroniser then stops the other lanes and flags the next clock
  as invalid (`C111_disagree`); the lanes are misaligned until the end of the next line
  (`C110_forgotten`).  Everything before the damage and everything after the first line end
  that follows another training is shown (`C111_bounded_partial`).  Wrong bits in pixels are
  harmless (`C109_bit_errors`).
* `C112_violated`: the receiver takes the level of each sync in the first clock after a line as
  its idle level. One wrong bit there (bit 9 of the control word on lane 0) inverts the vertical
  sync for the rest of the blanking interval (`C112_inverted`), which looks like the start of a
  frame. Wrong sync levels in any other clock are local (`C112_partial`).
* `C116_withdraw_violated`, `C116_report_violated`: writing 0 to the status register of a LOADED
  slot does not stop a transfer to it; its memory is written until the frame is complete. Slot
  selection moves on at once, so at the end another LOADED slot, to which nothing has been
  written, is marked PENDING. The right slot is reported if software leaves the slot of the
  transfer alone, whatever it does to the others (`C116_left_alone_partial`).
* `C120_receiver_violated`, `C120_transmitter_violated`: `S7Clocking` accepts
  `clkin_freq=74.25e6` but its parameters do not depend on it; the MMCM would run at 371.25 MHz
  and the PLL of `split_clocking` at 742.5 MHz, below the ranges of 600 to 1440 and 800 to 1866 MHz
  that the code quotes (input/clocking.py:193). `S7HDMIOutClocking` starts with 1500 MHz.
  Software can reprogram both. `C120_receiver_partial` gives the rates that work.
* `C47_violated`: the terminal's line lasts 801 clocks, not the documented 800; the
  vsync pulse is one clock short from the second frame on (`C47_vsync_partial`).
* `S6HDMIOutClocking` reads `pads.clk_p` (output/hdmi/s6.py:179-180) before asking
  whether it exists (s6.py:182), so it cannot be built for VGA pads with a single-ended
  clock although the next lines and `VGAPHY` provide for them (found by reading; the
  model starts from circuits that could be built).
