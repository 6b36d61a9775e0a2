{
 "claims": [
  {
   "property": "C01",
   "status": "proved",
   "theorems": [
    "Verif.Props.C01_roundtrip"
   ],
   "note": ""
  },
  {
   "property": "C02",
   "status": "proved",
   "theorems": [
    "Verif.Props.C02_dc_balance"
   ],
   "note": ""
  },
  {
   "property": "C03",
   "status": "proved",
   "theorems": [
    "Verif.Props.C03_data_words",
    "Verif.Props.C03_control_words",
    "Verif.Props.C03_wer_never_counts"
   ],
   "note": ""
  },
  {
   "property": "C04",
   "status": "proved",
   "theorems": [
    "Verif.Props.C04_exact_count"
   ],
   "note": "pixel clock domain; the value software reads is C93"
  },
  {
   "property": "C05",
   "status": "proved",
   "theorems": [
    "Verif.Props.C05_acquisition",
    "Verif.Props.C05_acquisition_any",
    "Verif.Props.C05_lock"
   ],
   "note": ""
  },
  {
   "property": "C06",
   "status": "proved",
   "theorems": [
    "Verif.Props.C06_no_false_lock",
    "Verif.Props.C06_no_false_lock_encoder"
   ],
   "note": ""
  },
  {
   "property": "C07",
   "status": "partial",
   "theorems": [
    "Verif.Props.C07_violated",
    "Verif.Props.C07_synced_partial"
   ],
   "note": "false of the code: synced is never lowered; negation proved with a witness"
  },
  {
   "property": "C08",
   "status": "proved",
   "theorems": [
    "Verif.Props.C08_age",
    "Verif.Props.C08_stays_aligned",
    "Verif.Props.C08_stays_synced",
    "Verif.Props.C08_invalid",
    "Verif.Props.C08_misaligned"
   ],
   "note": ""
  },
  {
   "property": "C09",
   "status": "proved",
   "theorems": [
    "Verif.Props.C09_acquire"
   ],
   "note": ""
  },
  {
   "property": "C10",
   "status": "proved",
   "theorems": [
    "Verif.Props.C10_value",
    "Verif.Props.C10_inactive_at_line_end",
    "Verif.Props.C10_polarity_independent",
    "Verif.Props.C10_pixels"
   ],
   "note": ""
  },
  {
   "property": "C100",
   "status": "proved",
   "theorems": [
    "Verif.Props.C100_queue",
    "Verif.Props.C100_refuses",
    "Verif.Props.C100_hides",
    "Verif.Props.C100_stable",
    "Verif.Props.C100_capture",
    "Verif.Props.C100_no_overflow",
    "Verif.Props.C100_no_overflow_ycbcr422"
   ],
   "note": "the circuit is Migen's AsyncFIFO, a dependency whose structure is assumed: Gray counters, two-register synchronisers, dual-port memory; bits of a counter that changes at the sampling edge are taken old or new independently. Depth at least 2"
  },
  {
   "property": "C101",
   "status": "partial",
   "theorems": [
    "Verif.Props.C101_no_reset_partial",
    "Verif.Props.C101_recovers_partial",
    "Verif.Props.C101_written_partial",
    "Verif.Props.C101_discards_partial",
    "Verif.Props.C101_lost",
    "Verif.Props.C101_stale",
    "Verif.Props.C101_violated"
   ],
   "note": "violated: the reset of the pixel clock domain clears the write counter of the FIFO but not the read counter, so the DMA takes up to twice the depth of stale words for new and completes a frame with them. Proved: no such word without a reset; the FIFO recovers from any state once drained; if no slot is loaded until then, nothing stale is written"
  },
  {
   "property": "C102",
   "status": "proved",
   "theorems": [
    "Verif.Props.C102_locks",
    "Verif.Props.C102_video",
    "Verif.Props.C102_resolution",
    "Verif.Props.C102_no_errors",
    "Verif.Props.C102_switch",
    "Verif.Props.C102_registers"
   ],
   "note": "counters are assumed to fit their bit widths; C102_registers shows that this is preserved"
  },
  {
   "property": "C103",
   "status": "proved",
   "theorems": [
    "Verif.Props.C103_update",
    "Verif.Props.C103_consumes"
   ],
   "note": "the FIFO is Migen's AsyncFIFO, a dependency whose structure is assumed; C103_consumes shows that the core goes on taking sets"
  },
  {
   "property": "C104",
   "status": "proved",
   "theorems": [
    "Verif.Props.C104_memory_to_vga"
   ],
   "note": "rgb mode; in ycbcr422 mode the pixels are one clock late (C44)"
  },
  {
   "property": "C105",
   "status": "partial",
   "theorems": [
    "Verif.Props.C105_black_column_partial",
    "Verif.Props.C105_next_pixel",
    "Verif.Props.C105_violated"
   ],
   "note": "violated: VGAPHY does not gate the colours with de, the pads show the next active pixel during blanking; they are black if the first column of the picture is"
  },
  {
   "property": "C106",
   "status": "proved",
   "theorems": [
    "Verif.Props.C106_completes"
   ],
   "note": "whole VideoOutCore without genlock, with the circuit of the parameter FIFO; says which pixels are active and where the syncs are, not the colours (C107)"
  },
  {
   "property": "C107",
   "status": "partial",
   "theorems": [
    "Verif.Props.C107_restart_partial",
    "Verif.Props.C107_first",
    "Verif.Props.C107_pause_partial",
    "Verif.Props.C107_violated"
   ],
   "note": "violated: the timing generator restarts at the first pixel, but the memory reader goes on with the buffer that it was reading, so the picture is shifted if the output is enabled again early; holds after a reset and after a long enough pause"
  },
  {
   "property": "C108",
   "status": "partial",
   "theorems": [
    "Verif.Props.C108_early_partial",
    "Verif.Props.C108_late_partial",
    "Verif.Props.C108_reported_partial",
    "Verif.Props.C108_violated"
   ],
   "note": "violated: the detector compares whole groups of eight bits, so in a run of nine equal bits late sampling looks like early sampling; pictures exist in which this outweighs the right events. Early sampling is never reported as late, for any data; late sampling is never reported as early if the line has no run of nine equal bits, and both are reported after 2^(n-1) changes"
  },
  {
   "property": "C109",
   "status": "proved",
   "theorems": [
    "Verif.Props.C109_bit_errors",
    "Verif.Props.C109_pixels",
    "Verif.Props.C109_video",
    "Verif.Props.C109_resolution",
    "Verif.Props.C109_alignment"
   ],
   "note": "C109_pixels and C109_video allow any damage of pixel words that does not make them control words, as long as three in a row of any seven are intact; C109_bit_errors derives this for isolated wrong bits"
  },
  {
   "property": "C11",
   "status": "proved",
   "theorems": [
    "Verif.Props.C11_hres",
    "Verif.Props.C11_invalid"
   ],
   "note": ""
  },
  {
   "property": "C110",
   "status": "proved",
   "theorems": [
    "Verif.Props.C110_forgotten"
   ],
   "note": "stronger than C102: the errors may have hit the same source, at the same alignment"
  },
  {
   "property": "C111",
   "status": "partial",
   "theorems": [
    "Verif.Props.C111_disagree",
    "Verif.Props.C111_violated",
    "Verif.Props.C111_bounded_partial"
   ],
   "note": "violated: a damaged control word on one lane (one wrong bit in blanking) makes the channel synchroniser lose its alignment, and the next clock is flagged invalid although it arrives intact. Proved: the clocks before the damaged one are delivered, and all clocks from the first line end after another training on. Damage that hits pixels only is local (C109), and all damage is forgotten (C110)"
  },
  {
   "property": "C112",
   "status": "partial",
   "theorems": [
    "Verif.Props.C112_received",
    "Verif.Props.C112_partial",
    "Verif.Props.C112_inverted",
    "Verif.Props.C112_violated"
   ],
   "note": "violated: the sync levels of the first clock after a line are taken as the idle levels; if that word is damaged the syncs of the whole blanking interval are inverted. Wrong levels in all other clocks are local; C112_received says what is shown of arbitrary words on lanes that agree on blanking"
  },
  {
   "property": "C113",
   "status": "proved",
   "theorems": [
    "Verif.Props.C113_in_order",
    "Verif.Props.C113_in_order_ycbcr422",
    "Verif.Props.C113_film",
    "Verif.Props.C113_film_ycbcr422"
   ],
   "note": "C113_in_order is about the capture path and any video, C113_film about the whole receiver and a film in a display mode; C85 is its instance for one picture in all frames"
  },
  {
   "property": "C114",
   "status": "proved",
   "theorems": [
    "Verif.Props.C114_film",
    "Verif.Props.C114_film_ycbcr422",
    "Verif.Props.C114_delivered",
    "Verif.Props.C114_delivered_ycbcr422"
   ],
   "note": "the errors are as in C109; C114_delivered adds that the picture of a LOADED slot arrives in the end (C91)"
  },
  {
   "property": "C115",
   "status": "proved",
   "theorems": [
    "Verif.Props.C115_isolated",
    "Verif.Props.C115_untouched"
   ],
   "note": "no assumption on software; a frame_size of less than a word is excluded because of C69"
  },
  {
   "property": "C116",
   "status": "partial",
   "theorems": [
    "Verif.Props.C116_withdraw_violated",
    "Verif.Props.C116_report_violated",
    "Verif.Props.C116_left_alone_partial"
   ],
   "note": "false: a transfer goes on when its slot is taken back, and at its end another LOADED slot is marked PENDING; proved: every transfer fills the block it began with, and the right slot is reported if software leaves that slot alone during the transfer"
  },
  {
   "property": "C117",
   "status": "proved",
   "theorems": [
    "Verif.Props.C117_kept"
   ],
   "note": "Captured and Done are what C53, C83, C85, C91 and C113 conclude or assume about a picture"
  },
  {
   "property": "C118",
   "status": "proved",
   "theorems": [
    "Verif.Props.C118_s6_two_per",
    "Verif.Props.C118_s7_in_step",
    "Verif.Props.C118_s6_received",
    "Verif.Props.C118_s7_received"
   ],
   "note": "the PLL is assumed to divide its oscillator by the given dividers and to stay locked; derives the clock hypotheses of C89 and C90"
  },
  {
   "property": "C119",
   "status": "proved",
   "theorems": [
    "Verif.Props.C119_s6_in",
    "Verif.Props.C119_s7_in",
    "Verif.Props.C119_s6_out",
    "Verif.Props.C119_s6_out_max",
    "Verif.Props.C119_s7_out"
   ],
   "note": "rates as rational functions of the parameters"
  },
  {
   "property": "C12",
   "status": "proved",
   "theorems": [
    "Verif.Props.C12_vres"
   ],
   "note": ""
  },
  {
   "property": "C120",
   "status": "partial",
   "theorems": [
    "Verif.Props.C120_receiver_violated",
    "Verif.Props.C120_transmitter_violated",
    "Verif.Props.C120_receiver_partial"
   ],
   "note": "false: 371.25 MHz at clkin_freq=74.25e6, 1500 MHz in the transmitter; the ranges are those of the comment in clocking.py:193; proved: the rates at which the receiver's generators are in range, 148.5 MHz among them"
  },
  {
   "property": "C121",
   "status": "proved",
   "theorems": [
    "Verif.Props.C121_coherent",
    "Verif.Props.C121_master_read",
    "Verif.Props.C121_slave_read",
    "Verif.Props.C121_pause"
   ],
   "note": "the bus synchroniser is the Migen library block, assumed; C121_pause shows that the condition on the system clock is needed"
  },
  {
   "property": "C122",
   "status": "proved",
   "theorems": [
    "Verif.Props.C122_master",
    "Verif.Props.C122_slave",
    "Verif.Props.C122_resets",
    "Verif.Props.C122_reset_lost"
   ],
   "note": "C122_reset_lost shows that resets need the spacing; what a delay line does with a command is inside the vendor primitive"
  },
  {
   "property": "C123",
   "status": "proved",
   "theorems": [
    "Verif.Props.C123_same",
    "Verif.Props.C123_resolution",
    "Verif.Props.C123_to_memory",
    "Verif.Props.C123_to_memory_ycbcr422"
   ],
   "note": "HDMI mode itself (dvimode 0) is off by one clock: C76"
  },
  {
   "property": "C124",
   "status": "proved",
   "theorems": [
    "Verif.Props.C124_words",
    "Verif.Props.C124_words_hdmi"
   ],
   "note": "the phase of pix_o is a hypothesis (ClocksInStep); with split_clocking it comes from a second MMCM"
  },
  {
   "property": "C125",
   "status": "proved",
   "theorems": [
    "Verif.Props.C125_notif",
    "Verif.Props.C125_frozen",
    "Verif.Props.C125_silent"
   ],
   "note": "that it can be frozen while it pulls SDA is C20"
  },
  {
   "property": "C126",
   "status": "proved",
   "theorems": [
    "Verif.Props.C126_no_overflow",
    "Verif.Props.C126_no_overflow_ycbcr422",
    "Verif.Props.C126_filled",
    "Verif.Props.C126_filled_ycbcr422"
   ],
   "note": "for the circuit of the FIFO; frame size constant"
  },
  {
   "property": "C127",
   "status": "proved",
   "theorems": [
    "Verif.Props.C127_film",
    "Verif.Props.C127_film_ycbcr422"
   ],
   "note": "whole input with the circuit of the FIFO; frame size constant; the pixel clock domain is not reset"
  },
  {
   "property": "C128",
   "status": "proved",
   "theorems": [
    "Verif.Props.C128_display_to_memory",
    "Verif.Props.C128_display_to_memory_ycbcr422"
   ],
   "note": "rgb display; mode and frame buffer constant; parameters have reached the core (C103)"
  },
  {
   "property": "C129",
   "status": "proved",
   "theorems": [
    "Verif.Props.C129_bounds",
    "Verif.Props.C129_clean"
   ],
   "note": "any period width; three system clock edges per period (C93)"
  },
  {
   "property": "C13",
   "status": "partial",
   "theorems": [
    "Verif.Props.C13_violated",
    "Verif.Props.C13_words_partial",
    "Verif.Props.C13_words_after_stale",
    "Verif.Props.C13_ycbcr422_violated",
    "Verif.Props.C13_ycbcr422_partial"
   ],
   "note": "false of the code in both modes (negation proved): a stale word can precede the frame; true for every frame after one whose pixel count is not one less than a multiple of the pixels per word; ycbcr422 mode for sources with at least 11 clocks of blanking"
  },
  {
   "property": "C130",
   "status": "proved",
   "theorems": [
    "Verif.Props.C130_film",
    "Verif.Props.C130_film_ycbcr422"
   ],
   "note": "DVI mode, clock ratio as in C126/C127. Slots must not be loaded until the FIFO has drained: C101_violated shows what happens otherwise"
  },
  {
   "property": "C131",
   "status": "partial",
   "theorems": [
    "Verif.Props.C131_violated",
    "Verif.Props.C131_recovers_partial",
    "Verif.Props.C131_bounded_partial",
    "Verif.Props.C131_stops_partial"
   ],
   "note": "false of the code: the reset clears the read counter of the parameter FIFO but not the write counter, so a disabled output shows old frames again, at most seven, and then stops. Proved if the reset is held with enable set. Read commands under way when the reset comes are taken as forgotten by the memory port"
  },
  {
   "property": "C132",
   "status": "proved",
   "theorems": [
    "Verif.Props.C132_count",
    "Verif.Props.C132_zero",
    "Verif.Props.C132_clean",
    "Verif.Props.C132_steady",
    "Verif.Props.C132_lost"
   ],
   "note": "the counter with both its clocks; C132_steady combines it with the output core and its FIFO circuit; C132_lost shows that the distance between requests is needed"
  },
  {
   "property": "C133",
   "status": "proved",
   "theorems": [
    "Verif.Props.C133_locks"
   ],
   "note": "HDMI mode (hdmi=True, dvimode 0) from serial lanes; the conditions of C22 and the shift of the colours of C76 are part of the statement; TmdsPixels is what C03 gives for the encoder"
  },
  {
   "property": "C134",
   "status": "partial",
   "theorems": [
    "Verif.Props.C134_syncs_partial",
    "Verif.Props.C134_lost",
    "Verif.Props.C134_violated"
   ],
   "note": "false of the code: SyncPolarity takes the syncs from control words only, the levels in the nibbles of data islands are ignored, so pulses inside data islands are lost. Proved: the syncs are exactly the levels of the last control word, relative to those of the second control word after the last line"
  },
  {
   "property": "C135",
   "status": "partial",
   "theorems": [
    "Verif.Props.C135_to_memory_partial",
    "Verif.Props.C135_to_memory_ycbcr422_partial",
    "Verif.Props.C135_violated"
   ],
   "note": "false of the code because of the finding of C76: each line in memory lacks its first pixel and ends with a pixel made from a control word. Proved, in both modes: the words in memory are exactly those of the source's frame with the colours one word early"
  },
  {
   "property": "C136",
   "status": "proved",
   "theorems": [
    "Verif.Props.C136_resolution"
   ],
   "note": "from any register contents, for all sources that send the periods of HDMI; frame starts as seen in control words (C134)"
  },
  {
   "property": "C137",
   "status": "proved",
   "theorems": [
    "Verif.Props.C137_delivered",
    "Verif.Props.C137_delivered_ycbcr422"
   ],
   "note": "liveness, with the words of the frame of C135"
  },
  {
   "property": "C14",
   "status": "proved",
   "theorems": [
    "Verif.Props.C14_sof",
    "Verif.Props.C14_sof_ycbcr422"
   ],
   "note": ""
  },
  {
   "property": "C15",
   "status": "proved",
   "theorems": [
    "Verif.Props.C15_flag",
    "Verif.Props.C15_no_false_report",
    "Verif.Props.C15_reported"
   ],
   "note": "clock-domain crossings as two-register synchronisers"
  },
  {
   "property": "C16",
   "status": "proved",
   "theorems": [
    "Verif.Props.C16_write",
    "Verif.Props.C16_block",
    "Verif.Props.C16_block_from",
    "Verif.Props.C16_no_overrun",
    "Verif.Props.C16_first_word",
    "Verif.Props.C16_completes"
   ],
   "note": "for frame_size of at least one word (see C69) and software that leaves LOADED slots alone; the DRAM writer is a ready/valid sink"
  },
  {
   "property": "C17",
   "status": "proved",
   "theorems": [
    "Verif.Props.C17_done",
    "Verif.Props.C17_untouched",
    "Verif.Props.C17_leaves_loaded",
    "Verif.Props.C17_lowest_first",
    "Verif.Props.C17_keeps_slot"
   ],
   "note": "for software that leaves LOADED slots alone"
  },
  {
   "property": "C18",
   "status": "proved",
   "theorems": [
    "Verif.Props.C18_read_transfer"
   ],
   "note": "for masters whose phases are not shorter than the 64-clock sampling needs (SCL low 128 clocks, SCL high, START and SDA set-up 64 clocks)"
  },
  {
   "property": "C19",
   "status": "partial",
   "theorems": [
    "Verif.Props.C19_violated",
    "Verif.Props.C19_addressed_partial"
   ],
   "note": "false for arbitrary waveforms (negation proved): SDA falling less than a sampling period before SCL rises is taken for a START; true for masters that respect the sampling period"
  },
  {
   "property": "C20",
   "status": "partial",
   "theorems": [
    "Verif.Props.C20_violated",
    "Verif.Props.C20_fast_clock",
    "Verif.Props.C20_recovery_partial"
   ],
   "note": "false of the code (negation proved): stuck after the hot-plug enable drops during a read, or with a fast master; true otherwise"
  },
  {
   "property": "C21",
   "status": "proved",
   "theorems": [
    "Verif.Props.C21_accumulator_s6",
    "Verif.Props.C21_accumulator_s7"
   ],
   "note": ""
  },
  {
   "property": "C22",
   "status": "partial",
   "theorems": [
    "Verif.Props.C22_exclusive",
    "Verif.Props.C22_island_sound",
    "Verif.Props.C22_enable_sound",
    "Verif.Props.C22_periods_partial",
    "Verif.Props.C22_pixels_exact",
    "Verif.Props.C22_violated"
   ],
   "note": "false of the code for pixels that encode to the guard band at the start of a line (negation proved); exact for every other conforming stream, sound for every stream"
  },
  {
   "property": "C23",
   "status": "proved",
   "theorems": [
    "Verif.Props.C23_rgb2ycbcr",
    "Verif.Props.C23_datapath"
   ],
   "note": "requires ycbcr_w <= rgb_w + 2"
  },
  {
   "property": "C24",
   "status": "proved",
   "theorems": [
    "Verif.Props.C24_ycbcr2rgb",
    "Verif.Props.C24_datapath"
   ],
   "note": "requires 1 <= rgb_w <= ycbcr_w, coef_w >= 2"
  },
  {
   "property": "C25",
   "status": "proved",
   "theorems": [
    "Verif.Props.C25_roundtrip_error",
    "Verif.Props.C25_grey"
   ],
   "note": ""
  },
  {
   "property": "C26",
   "status": "proved",
   "theorems": [
    "Verif.Props.C26_downsample",
    "Verif.Props.C26_datapath",
    "Verif.Props.C26_bubble_breaks_pairing"
   ],
   "note": "as stated, for streams without idle clocks; C26_bubble_breaks_pairing shows the hypothesis is needed"
  },
  {
   "property": "C27",
   "status": "proved",
   "theorems": [
    "Verif.Props.C27_upsample",
    "Verif.Props.C27_no_deadlock",
    "Verif.Props.C27_stable",
    "Verif.Props.C27_reset"
   ],
   "note": ""
  },
  {
   "property": "C28",
   "status": "proved",
   "theorems": [
    "Verif.Props.C28_chain",
    "Verif.Props.C28_live"
   ],
   "note": ""
  },
  {
   "property": "C29",
   "status": "proved",
   "theorems": [
    "Verif.Props.C29_in_order_lossless",
    "Verif.Props.C29_drains",
    "Verif.Props.C29_stable"
   ],
   "note": "generic over datapaths of fixed latency; instances per converter"
  },
  {
   "property": "C30",
   "status": "partial",
   "theorems": [
    "Verif.Props.C30_product_partial",
    "Verif.Props.C30_subnormal_result",
    "Verif.Props.C30_zero",
    "Verif.Props.C30_violated"
   ],
   "note": "false of the code for results with exponent field 1 (negation proved with a witness); proved for all other results"
  },
  {
   "property": "C31",
   "status": "partial",
   "theorems": [
    "Verif.Props.C31_violated",
    "Verif.Props.C31_held_partial",
    "Verif.Props.C31_stream_partial"
   ],
   "note": "false of the code for back-to-back pairs (negation proved); holds for pairs held two enabled clocks"
  },
  {
   "property": "C32",
   "status": "proved",
   "theorems": [
    "Verif.Props.C32_sum",
    "Verif.Props.C32_stream"
   ],
   "note": ""
  },
  {
   "property": "C33",
   "status": "partial",
   "theorems": [
    "Verif.Props.C33_normal_partial",
    "Verif.Props.C33_violated"
   ],
   "note": "false of the code for zero and subnormals (negation proved); proved for all positive normals"
  },
  {
   "property": "C34",
   "status": "proved",
   "theorems": [
    "Verif.Props.C34_table",
    "Verif.Props.C34_table_size",
    "Verif.Props.C34_datapath"
   ],
   "note": ""
  },
  {
   "property": "C35",
   "status": "proved",
   "theorems": [
    "Verif.Props.C35_roundtrip"
   ],
   "note": ""
  },
  {
   "property": "C36",
   "status": "partial",
   "theorems": [
    "Verif.Props.C36_floor_partial",
    "Verif.Props.C36_stream_partial",
    "Verif.Props.C36_violated"
   ],
   "note": "false of the code at 1.0 exactly (negation proved); proved on [0,1)"
  },
  {
   "property": "C37",
   "status": "partial",
   "theorems": [
    "Verif.Props.C37_violated",
    "Verif.Props.C37_magnitude",
    "Verif.Props.C37_stream_partial"
   ],
   "note": "false of the code for every pixel (proved); order and losslessness of the stream hold"
  },
  {
   "property": "C38",
   "status": "proved",
   "theorems": [
    "Verif.Props.C38_timing",
    "Verif.Props.C38_active_count",
    "Verif.Props.C38_hsync_count",
    "Verif.Props.C38_vsync_count",
    "Verif.Props.C38_last",
    "Verif.Props.C38_restart",
    "Verif.Props.C38_restart_blank"
   ],
   "note": ""
  },
  {
   "property": "C39",
   "status": "proved",
   "theorems": [
    "Verif.Props.C39_reads",
    "Verif.Props.C39_live"
   ],
   "note": "length below one word (length = 0) excluded, as stated"
  },
  {
   "property": "C40",
   "status": "proved",
   "theorems": [
    "Verif.Props.C40_frame",
    "Verif.Props.C40_live",
    "Verif.Props.C40_conservation"
   ],
   "note": "end-to-end statement for constant parameters and a buffer of exactly one frame; conservation for arbitrary parameters"
  },
  {
   "property": "C41",
   "status": "partial",
   "theorems": [
    "Verif.Props.C41_violated",
    "Verif.Props.C41_two_buffers_partial"
   ],
   "note": "false of the code (negation proved with a witness); each pixel comes from the right place of its own or the previous buffer"
  },
  {
   "property": "C42",
   "status": "proved",
   "theorems": [
    "Verif.Props.C42_disabled",
    "Verif.Props.C42_count",
    "Verif.Props.C42_status"
   ],
   "note": "counter is 32 bits wide"
  },
  {
   "property": "C43",
   "status": "proved",
   "theorems": [
    "Verif.Props.C43_rgb",
    "Verif.Props.C43_raw",
    "Verif.Props.C43_inverted"
   ],
   "note": "a lane is its sequence of 10-bit words; the serializers are C89"
  },
  {
   "property": "C44",
   "status": "partial",
   "theorems": [
    "Verif.Props.C44_violated",
    "Verif.Props.C44_timing",
    "Verif.Props.C44_pixels_partial",
    "Verif.Props.C44_shifted"
   ],
   "note": "false of the code: data arrives 7 clocks late, data-enable 6 (negation proved)"
  },
  {
   "property": "C45",
   "status": "proved",
   "theorems": [
    "Verif.Props.C45_bars",
    "Verif.Props.C45_lines",
    "Verif.Props.C45_drift"
   ],
   "note": ""
  },
  {
   "property": "C46",
   "status": "proved",
   "theorems": [
    "Verif.Props.C46_lines",
    "Verif.Props.C46_dots",
    "Verif.Props.C46_dots_odd"
   ],
   "note": ""
  },
  {
   "property": "C47",
   "status": "partial",
   "theorems": [
    "Verif.Props.C47_hsync_partial",
    "Verif.Props.C47_vsync_partial",
    "Verif.Props.C47_violated"
   ],
   "note": "false as documented (negation proved): a line lasts 801 clocks instead of 800; the exact waveform is proved"
  },
  {
   "property": "C48",
   "status": "proved",
   "theorems": [
    "Verif.Props.C48_pixel",
    "Verif.Props.C48_picture",
    "Verif.Props.C48_black"
   ],
   "note": ""
  },
  {
   "property": "C49",
   "status": "proved",
   "theorems": [
    "Verif.Props.C49_acknowledge",
    "Verif.Props.C49_array"
   ],
   "note": "for masters that hold an access until the acknowledge, within the address range"
  },
  {
   "property": "C50",
   "status": "proved",
   "theorems": [
    "Verif.Props.C50_flags",
    "Verif.Props.C50_bits"
   ],
   "note": ""
  },
  {
   "property": "C51",
   "status": "proved",
   "theorems": [
    "Verif.Props.C51_leadone",
    "Verif.Props.C51_zero"
   ],
   "note": ""
  },
  {
   "property": "C52",
   "status": "proved",
   "theorems": [
    "Verif.Props.C52_link"
   ],
   "note": ""
  },
  {
   "property": "C53",
   "status": "proved",
   "theorems": [
    "Verif.Props.C53_frame_in_memory"
   ],
   "note": "for frames of at least frame_size words whose length is not one pixel short of a whole number of words (C13, C70); completion of a started transfer is C16_completes"
  },
  {
   "property": "C54",
   "status": "proved",
   "theorems": [
    "Verif.Props.C54_master_busy",
    "Verif.Props.C54_slave_busy",
    "Verif.Props.C54_cleared",
    "Verif.Props.C54_overlap"
   ],
   "note": "for software that waits for the flag; C54_overlap shows that this is needed; assumes that a delay element is busy at the edge after a command until it has finished"
  },
  {
   "property": "C55",
   "status": "proved",
   "theorems": [
    "Verif.Props.C55_drdy"
   ],
   "note": ""
  },
  {
   "property": "C56",
   "status": "proved",
   "theorems": [
    "Verif.Props.C56_mode_change"
   ],
   "note": ""
  },
  {
   "property": "C57",
   "status": "partial",
   "theorems": [
    "Verif.Props.C57_violated",
    "Verif.Props.C57_conservation_partial"
   ],
   "note": "false of the code (negation proved with a witness); words are never lost, duplicated or reordered"
  },
  {
   "property": "C58",
   "status": "partial",
   "theorems": [
    "Verif.Props.C58_violated",
    "Verif.Props.C58_offered_partial"
   ],
   "note": "false of the code (negation proved); exact relation between offered and taken pixels under every schedule"
  },
  {
   "property": "C59",
   "status": "proved",
   "theorems": [
    "Verif.Props.C59_vga_component",
    "Verif.Props.C59_vga_monotone"
   ],
   "note": ""
  },
  {
   "property": "C60",
   "status": "proved",
   "theorems": [
    "Verif.Props.C60_memory_to_receiver"
   ],
   "note": ""
  },
  {
   "property": "C61",
   "status": "proved",
   "theorems": [
    "Verif.Props.C61_reads",
    "Verif.Props.C61_one_per_vsync",
    "Verif.Props.C61_live",
    "Verif.Props.C61_overrun"
   ],
   "note": ""
  },
  {
   "property": "C62",
   "status": "proved",
   "theorems": [
    "Verif.Props.C62_snapshots",
    "Verif.Props.C62_update_visible",
    "Verif.Props.C62_circuit"
   ],
   "note": "C62_circuit states it for the circuit of the FIFO (Migen AsyncFIFO, structure assumed), the other two for a queue with arbitrary flag lag"
  },
  {
   "property": "C63",
   "status": "partial",
   "theorems": [
    "Verif.Props.C63_violated",
    "Verif.Props.C63_disable_partial"
   ],
   "note": "false of the code (negation proved); holds if software clears enable around the update"
  },
  {
   "property": "C64",
   "status": "proved",
   "theorems": [
    "Verif.Props.C64_self_stabilising",
    "Verif.Props.C64_skew_limit"
   ],
   "note": ""
  },
  {
   "property": "C65",
   "status": "partial",
   "theorems": [
    "Verif.Props.C65_violated",
    "Verif.Props.C65_all_control",
    "Verif.Props.C65_line_end_partial"
   ],
   "note": "false of the code (negation proved); true at the end of every active period"
  },
  {
   "property": "C66",
   "status": "partial",
   "theorems": [
    "Verif.Props.C66_violated",
    "Verif.Props.C66_double_reset",
    "Verif.Props.C66_reported_partial"
   ],
   "note": "false of the code (negation proved, two ways); true once the reset handshake is complete"
  },
  {
   "property": "C67",
   "status": "partial",
   "theorems": [
    "Verif.Props.C67_violated",
    "Verif.Props.C67_half_the_pixels",
    "Verif.Props.C67_all_captured_partial"
   ],
   "note": "false of the code for one pixel per word (negation proved); true for two or more"
  },
  {
   "property": "C68",
   "status": "proved",
   "theorems": [
    "Verif.Props.C68_reset_clears"
   ],
   "note": ""
  },
  {
   "property": "C69",
   "status": "partial",
   "theorems": [
    "Verif.Props.C69_violated",
    "Verif.Props.C69_whole_memory"
   ],
   "note": "false of the code (negation proved): the transfer runs through the whole memory; nothing positive remains, since C16 covers all other frame sizes"
  },
  {
   "property": "C70",
   "status": "partial",
   "theorems": [
    "Verif.Props.C70_violated",
    "Verif.Props.C70_long_frames_partial"
   ],
   "note": "false of the code for frames shorter than frame_size (negation proved); proved for longer ones"
  },
  {
   "property": "C71",
   "status": "partial",
   "theorems": [
    "Verif.Props.C71_violated",
    "Verif.Props.C71_kept_partial"
   ],
   "note": "false of the code (negation proved); true from the second waiting clock on"
  },
  {
   "property": "C72",
   "status": "proved",
   "theorems": [
    "Verif.Props.C72_drained"
   ],
   "note": "for frame_size of at least one word"
  },
  {
   "property": "C73",
   "status": "proved",
   "theorems": [
    "Verif.Props.C73_pulls_after_low"
   ],
   "note": ""
  },
  {
   "property": "C74",
   "status": "partial",
   "theorems": [
    "Verif.Props.C74_violated",
    "Verif.Props.C74_phase_flags_s6_partial",
    "Verif.Props.C74_phase_flags_s7_partial"
   ],
   "note": "false of the code (negation proved): stale flags are read directly after the reset; true once the reset has crossed"
  },
  {
   "property": "C75",
   "status": "proved",
   "theorems": [
    "Verif.Props.C75_deserialised"
   ],
   "note": ""
  },
  {
   "property": "C76",
   "status": "partial",
   "theorems": [
    "Verif.Props.C76_violated",
    "Verif.Props.C76_hdmi_partial",
    "Verif.Props.C76_dvi_aligned"
   ],
   "note": "false of the code in HDMI mode (negation proved): data-enable is one clock late with respect to the pixels; true in DVI mode"
  },
  {
   "property": "C77",
   "status": "proved",
   "theorems": [
    "Verif.Props.C77_nibbles",
    "Verif.Props.C77_control"
   ],
   "note": ""
  },
  {
   "property": "C78",
   "status": "proved",
   "theorems": [
    "Verif.Props.C78_shown"
   ],
   "note": ""
  },
  {
   "property": "C79",
   "status": "proved",
   "theorems": [
    "Verif.Props.C79_initial"
   ],
   "note": ""
  },
  {
   "property": "C80",
   "status": "proved",
   "theorems": [
    "Verif.Props.C80_locks",
    "Verif.Props.C80_video"
   ],
   "note": "vendor deserialiser modelled as an ideal bit stream"
  },
  {
   "property": "C81",
   "status": "proved",
   "theorems": [
    "Verif.Props.C81_resolution"
   ],
   "note": ""
  },
  {
   "property": "C82",
   "status": "proved",
   "theorems": [
    "Verif.Props.C82_no_errors"
   ],
   "note": "pixel clock domain; the value software reads is C93"
  },
  {
   "property": "C83",
   "status": "proved",
   "theorems": [
    "Verif.Props.C83_restart",
    "Verif.Props.C83_restart_ycbcr422"
   ],
   "note": "same conditions on frame lengths as C53; ycbcr422 also needs 11 clocks of blanking after lines and before frame starts (C13)"
  },
  {
   "property": "C84",
   "status": "proved",
   "theorems": [
    "Verif.Props.C84_transmitter_to_memory",
    "Verif.Props.C84_transmitter_to_memory_ycbcr422"
   ],
   "note": "DVI mode; conditions on the frames as in C83; ycbcr422 also needs lines of an even number of pixels; deserialisation is an ideal 1:10 deserialiser at a fixed bit phase"
  },
  {
   "property": "C85",
   "status": "proved",
   "theorems": [
    "Verif.Props.C85_buffer_to_memory",
    "Verif.Props.C85_buffer_to_memory_ycbcr422",
    "Verif.Props.C85_raster",
    "Verif.Props.C85_raster_ycbcr422"
   ],
   "note": "conditions of C84; pixels per frame a multiple of the pixels per memory word; in ycbcr422 mode lines of an even number of pixels with 11 clocks of blanking"
  },
  {
   "property": "C86",
   "status": "partial",
   "theorems": [
    "Verif.Props.C86_rgb_violated",
    "Verif.Props.C86_rgb_partial",
    "Verif.Props.C86_ycbcr422",
    "Verif.Props.C86_ycbcr422_flat"
   ],
   "note": "false of the code in rgb mode: red and blue are exchanged; proved in ycbcr422 mode up to the one-clock shift of C44"
  },
  {
   "property": "C87",
   "status": "proved",
   "theorems": [
    "Verif.Props.C87_filled",
    "Verif.Props.C87_filled_ycbcr422",
    "Verif.Props.C87_progress",
    "Verif.Props.C87_progress_ycbcr422"
   ],
   "note": "conditions on the frames as in C83; the fairness assumptions are those of Alive"
  },
  {
   "property": "C88",
   "status": "proved",
   "theorems": [
    "Verif.Props.C88_double_buffer",
    "Verif.Props.C88_double_buffer_ycbcr422",
    "Verif.Props.C88_starved"
   ],
   "note": "conditions on the frames as in C83; the example beside C88_starved is an endless run with three slots in which slot 2 is never filled"
  },
  {
   "property": "C89",
   "status": "proved",
   "theorems": [
    "Verif.Props.C89_s6_transmitted",
    "Verif.Props.C89_s7_transmitted",
    "Verif.Props.C89_s6_clock",
    "Verif.Props.C89_s7_clock",
    "Verif.Props.C89_s6_received",
    "Verif.Props.C89_lanes"
   ],
   "note": "bit order of the vendor SERDES primitives is assumed"
  },
  {
   "property": "C90",
   "status": "proved",
   "theorems": [
    "Verif.Props.C90_s7_received",
    "Verif.Props.C90_s7_samples",
    "Verif.Props.C90_lanes"
   ],
   "note": "Migen's Gearbox is a dependency; its assumed behaviour is Model/Gearbox"
  },
  {
   "property": "C91",
   "status": "proved",
   "theorems": [
    "Verif.Props.C91_display_to_memory",
    "Verif.Props.C91_display_to_memory_ycbcr422",
    "Verif.Props.C91_raster",
    "Verif.Props.C91_raster_ycbcr422"
   ],
   "note": "conditions of C85 and C87; fairness assumptions AliveIn"
  },
  {
   "property": "C92",
   "status": "proved",
   "theorems": [
    "Verif.Props.C92_master_taps",
    "Verif.Props.C92_slave_taps",
    "Verif.Props.C92_too_fast"
   ],
   "note": "the IDELAYE2 tap counter is a vendor primitive, assumed as in Model/DataCapture"
  },
  {
   "property": "C93",
   "status": "proved",
   "theorems": [
    "Verif.Props.C93_value",
    "Verif.Props.C93_before"
   ],
   "note": ""
  },
  {
   "property": "C94",
   "status": "proved",
   "theorems": [
    "Verif.Props.C94_irq",
    "Verif.Props.C94_raised"
   ],
   "note": "LiteX's event manager is a dependency: a level source is assumed pending while its trigger is 1"
  },
  {
   "property": "C95",
   "status": "partial",
   "theorems": [
    "Verif.Props.C95_bits_partial",
    "Verif.Props.C95_whole_partial",
    "Verif.Props.C95_stable_partial",
    "Verif.Props.C95_violated"
   ],
   "note": "violated: the bits of a register cross the clock boundary independently, so a changing resolution can be read as a value never measured. Proved: single bits are never wrong, only late; a value stable over two system clocks is read as it is"
  },
  {
   "property": "C96",
   "status": "proved",
   "theorems": [
    "Verif.Props.C96_status"
   ],
   "note": ""
  },
  {
   "property": "C97",
   "status": "proved",
   "theorems": [
    "Verif.Props.C97_no_overflow",
    "Verif.Props.C97_no_overflow_ycbcr422",
    "Verif.Props.C97_no_report",
    "Verif.Props.C97_filled",
    "Verif.Props.C97_filled_ycbcr422"
   ],
   "note": "at least two pixels per word, as everywhere for the capture path"
  },
  {
   "property": "C98",
   "status": "proved",
   "theorems": [
    "Verif.Props.C98_no_underflow",
    "Verif.Props.C98_counter"
   ],
   "note": "LiteDRAM's reader is a dependency, modelled as an in-order reader with reservation; the frame length register is the number of pixels, as for C40"
  },
  {
   "property": "C99",
   "status": "proved",
   "theorems": [
    "Verif.Props.C99_display_to_memory",
    "Verif.Props.C99_display_to_memory_ycbcr422"
   ],
   "note": ""
  }
 ]
}