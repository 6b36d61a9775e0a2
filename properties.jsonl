{"id": "C01", "title": "TMDS encode/decode round trip on streams", "statement": "Feeding any sequence of (pixel byte, control bits, data-enable) into the HDMI output Encoder and its 10-bit output into the HDMI input Decoding block returns, 5 clocks later, the same data-enable, the same pixel byte whenever data-enable was 1 and the same control bits whenever it was 0.", "quantifier": "every input sequence of any length, every clock cycle from 4 clocks after reset on", "why_tests_cant": "The encoder carries running-disparity state, so the code word of a byte depends on the whole history; tests sample a few histories.", "anchors": ["litevideo/output/hdmi/encoder.py:Encoder", "litevideo/input/decoding.py:Decoding"]}
{"id": "C02", "title": "TMDS DC balance", "statement": "At each word boundary of every active-video run the difference between the number of 1s and 0s sent on the wire since the run began never leaves [-8, 8], and the 6-bit disparity register always equals that difference (it never overflows).", "quantifier": "every pixel sequence of any length", "why_tests_cant": "A worst case accumulates over unboundedly long adversarial pixel sequences.", "anchors": ["litevideo/output/hdmi/encoder.py:Encoder"]}
{"id": "C03", "title": "TMDS data words are never mistaken for control words or errors", "statement": "Every word the Encoder emits with data-enable set differs from all four control tokens, has at most 4 transitions in its low 9 bits, and is therefore never counted as a word error by WER; control tokens are never counted either.", "quantifier": "every pixel byte, every running-disparity history, all control values", "why_tests_cant": "Depends on the joint choice of encoding polarity and inversion over all histories.", "anchors": ["litevideo/output/hdmi/encoder.py:Encoder", "litevideo/input/wer.py:WER", "litevideo/input/common.py:control_tokens"]}
{"id": "C04", "title": "Word error rate counts are exact and never wrap", "statement": "The value WER latches at the end of each period of 2^period_bits pixel clocks equals the number of erroneous words among the 2^period_bits - 1 words of that period it observes (the word that coincides with the period boundary is not counted), and it never overflows.", "quantifier": "every word stream, every period number, every period_bits", "why_tests_cant": "A period is 2^24 clocks by default; no simulation covers all contents or the overflow corner.", "anchors": ["litevideo/input/wer.py:WER"]}
{"id": "C05", "title": "Character alignment is acquired at any bit offset", "statement": "If the serial stream carries at least required_controls+2 consecutive control tokens at some bit offset k in 0..9, CharSync raises synced with position k and from then on outputs exactly the transmitted words, whatever it received before.", "quantifier": "every offset 0..9, every sequence of control tokens, every earlier history, all later TMDS words, every required_controls >= 4", "why_tests_cant": "Cross product of offsets, token sequences and arbitrary earlier garbage.", "anchors": ["litevideo/input/charsync.py:CharSync"]}
{"id": "C06", "title": "Character alignment never locks on a wrong boundary", "statement": "On any serial stream made of TMDS words (encoded pixels and control tokens, control tokens coming in runs of at least two) at a fixed bit offset, CharSync never selects a different offset once that stream is what it has received since reset.", "quantifier": "every sequence of pixels/control words of unbounded length, every bit offset, every required_controls >= 6 (default 8)", "why_tests_cant": "Video content is adversarial and unbounded; a false lock would need a rare pattern.", "anchors": ["litevideo/input/charsync.py:CharSync", "litevideo/output/hdmi/encoder.py:Encoder"]}
{"id": "C07", "title": "Loss of character alignment is reported", "statement": "After the stream stops carrying control tokens, CharSync eventually lowers synced (its char_synced status).", "quantifier": "every history after lock", "why_tests_cant": "It is a liveness statement about unbounded futures.", "anchors": ["litevideo/input/charsync.py:CharSync"]}
{"id": "C08", "title": "Channel alignment is stable", "statement": "Once the three channel outputs of ChanSync are aligned on the same source word, they stay aligned on every later cycle, no word is skipped or repeated on any channel, and chan_synced stays 1 from the first aligned control word on while valid_i is 1.", "quantifier": "every number of channels, every buffer depth, every source word sequence, every skew, all later cycles", "why_tests_cant": "Ring-buffer pointers wrap forever; alignment must survive every wrap and content.", "anchors": ["litevideo/input/chansync.py:_SyncBuffer", "litevideo/input/chansync.py:ChanSync"]}
{"id": "C09", "title": "Channel alignment is acquired for any skew the buffers can absorb", "statement": "If all channels are in active data and the distance between the most advanced and the most delayed channel fits in the free buffer space, then the next control period aligns all channels: from the cycle at which the slowest channel reaches its first control word, all outputs carry the same source word and chan_synced becomes 1.", "quantifier": "every skew combination within the buffer depth, every number of channels, every control/data sequence", "why_tests_cant": "Interleavings of per-channel stalls over all skews.", "anchors": ["litevideo/input/chansync.py:_SyncBuffer", "litevideo/input/chansync.py:ChanSync"]}
{"id": "C10", "title": "Sync outputs do not depend on sync polarity", "statement": "After the first end of active video, SyncPolarity's hsync/vsync are identical for a source and for the same source with hsync and/or vsync inverted, and both are 0 at the end of every active line.", "quantifier": "every control/data sequence, all four polarity combinations", "why_tests_cant": "Relational property over pairs of unbounded streams.", "anchors": ["litevideo/input/analysis.py:SyncPolarity"]}
{"id": "C11", "title": "Horizontal resolution measurement", "statement": "One clock after any active line of n consecutive data-enable clocks ends (with valid_i high), ResolutionDetection reports n modulo 2^nbits as hres and keeps it until the next line ends.", "quantifier": "every line length, every earlier history, every nbits", "why_tests_cant": "All line lengths including wrap-around, all histories.", "anchors": ["litevideo/input/analysis.py:ResolutionDetection"]}
{"id": "C12", "title": "Vertical resolution measurement", "statement": "At each vsync rising edge (valid_i high), ResolutionDetection latches as vres the number of active lines that ended since the previous vsync rising edge, not counting one ending on that edge itself, modulo 2^nbits.", "quantifier": "every frame content, every number of lines, every nbits", "why_tests_cant": "All frame shapes and histories.", "anchors": ["litevideo/input/analysis.py:ResolutionDetection"]}
{"id": "C13", "title": "Captured pixels are packed without loss, duplication or reordering", "statement": "Between two frame starts the words FrameExtraction emits are exactly the active pixels of the frame, in order, grouped by word_width/pixel_width with the earliest pixel in the most significant position.", "quantifier": "every pixel sequence with arbitrary gaps, every power-of-two pack factor above 1, both modes", "why_tests_cant": "All gap patterns and lengths.", "anchors": ["litevideo/input/analysis.py:FrameExtraction"]}
{"id": "C14", "title": "Start-of-frame marks exactly the first word of each frame", "statement": "Of the words emitted between two vsync rising edges exactly the first one carries sof.", "quantifier": "every frame content and gap pattern", "why_tests_cant": "All interleavings of vsync, pixels and packing phase.", "anchors": ["litevideo/input/analysis.py:FrameExtraction"]}
{"id": "C15", "title": "A lost capture word is always reported as overflow", "statement": "Whenever a packed word is offered while the capture FIFO is full the overflow flag is set on the next pixel clock, and it stays set until software resets it; without such an event it is never set.", "quantifier": "every interleaving of the pixel and system clocks and of software resets", "why_tests_cant": "All interleavings of two clock domains.", "anchors": ["litevideo/input/analysis.py:FrameExtraction"]}
{"id": "C16", "title": "Capture DMA writes exactly one frame_size block starting at the slot address", "statement": "For each captured frame the DMA writes exactly frame_size words, to slot address, +1, +2, ... in order, the first being a start-of-frame word and the data being the consecutive words of the frame stream; it never writes outside [address, address+frame_size) of a LOADED slot.", "quantifier": "every schedule of frame-stream valid, memory ready and memory drain, every frame_size >= 1", "why_tests_cant": "All handshake interleavings.", "anchors": ["litevideo/input/dma.py:DMA", "litevideo/input/dma.py:_SlotArray"]}
{"id": "C17", "title": "Capture slots are used lowest-first, one at a time, and end PENDING", "statement": "When a transfer ends exactly the slot that was being written goes from LOADED to PENDING with its address register equal to address+frame_size; no other slot changes; the next transfer goes to the lowest-numbered LOADED slot; software owning a non-LOADED slot never sees it written.", "quantifier": "every history of software slot writes that respects ownership, every number of slots", "why_tests_cant": "All software/hardware interleavings.", "anchors": ["litevideo/input/dma.py:_Slot", "litevideo/input/dma.py:_SlotArray", "litevideo/input/dma.py:DMA"]}
{"id": "C18", "title": "An EDID read returns the memory content", "statement": "For any I2C master performing START, 0xA0, offset, START, 0xA1 and then reading n bytes, EDID acknowledges each address/offset byte and drives bit by bit, MSB first, mem[offset], mem[offset+1], ... modulo the memory size.", "quantifier": "every EDID content, every offset, every number of bytes, every history before, every duration of each bus phase not shorter than the sampling of the bus needs (SCL low for two sampling periods, SCL high and SDA set-up for one, i.e. 64 system clocks)", "why_tests_cant": "All bus timings and all memory contents and lengths.", "anchors": ["litevideo/input/edid.py:EDID"]}
{"id": "C19", "title": "EDID drives SDA only after being addressed", "statement": "EDID never pulls SDA low until a complete address byte 0x50 (with either direction bit) has been received after a START; a byte with another address leaves it silent until the next START.", "quantifier": "every bus activity", "why_tests_cant": "All bus waveforms.", "anchors": ["litevideo/input/edid.py:EDID"]}
{"id": "C20", "title": "EDID never holds the bus forever", "statement": "Whatever software and the bus master do, EDID releases SDA eventually (a master can always recover the bus with clock pulses).", "quantifier": "every bus activity and every software use of hpd_en", "why_tests_cant": "Liveness over unbounded futures.", "anchors": ["litevideo/input/edid.py:EDID"]}
{"id": "C21", "title": "Phase accumulators saturate and latch", "statement": "The lateness accumulator of the data capture blocks equals mid-scale plus late minus early events since the last reset until it first reaches 0 or full scale, then stays there until reset; it never wraps, and too_late and too_early are never both set.", "quantifier": "every phase-detector event sequence, every ntbits >= 1", "why_tests_cant": "Unbounded event sequences.", "anchors": ["litevideo/input/datacapture.py:S6DataCapture", "litevideo/input/datacapture.py:S7DataCapture", "litevideo/input/datacapture.py:S7PhaseDetector"]}
{"id": "C22", "title": "HDMI data-enable covers exactly the pixels after a video guard band", "statement": "In HDMI mode de is 1 exactly from the first word after a video guard band (all three channels) to the first control word; it is never 1 during a data island, and the data-island flag is never 1 during video, nor without a data-island preamble and guard band before it.", "quantifier": "every word stream, all three channels", "why_tests_cant": "State machine over unbounded adversarial streams.", "anchors": ["litevideo/input/decoding.py:DecodeTERC4", "litevideo/input/decoding.py:DecodeTERC4Channel"]}
{"id": "C23", "title": "RGB to YCbCr computes the documented fixed-point formula with saturation", "statement": "RGB2YCbCr's output equals the documented formula evaluated in exact integer arithmetic with rounding toward minus infinity at each division by 2^coef_w and saturation to [0, 2^w-1]: no intermediate register ever overflows.", "quantifier": "every pixel, every component width >= 4, every coefficient width and every coefficient set with ca+cb <= 1, cc,cd <= 1", "why_tests_cant": "2^24 pixels times widths; overflow corners.", "anchors": ["litevideo/csc/rgb2ycbcr.py:RGB2YCbCrDatapath", "litevideo/csc/common.py:saturate"]}
{"id": "C24", "title": "YCbCr to RGB computes the documented fixed-point formula with saturation", "statement": "YCbCr2RGB's output equals the documented formula evaluated in exact integer arithmetic (rounding toward minus infinity per product) with saturation; no intermediate register overflows.", "quantifier": "every YCbCr triple, every rgb_w, ycbcr_w, coef_w with 1 <= rgb_w <= ycbcr_w and coef_w >= 2", "why_tests_cant": "2^24 inputs; overflow corners.", "anchors": ["litevideo/csc/ycbcr2rgb.py:YCbCr2RGBDatapath"]}
{"id": "C25", "title": "Colour conversion round trip error is bounded", "statement": "RGB -> YCbCr -> RGB at default widths returns each component within a fixed small error of the original for every pixel whose YCbCr values are not clipped, and greys up to 239 come back unchanged.", "quantifier": "every pixel", "why_tests_cant": "2^24 pixels.", "anchors": ["litevideo/csc/rgb2ycbcr.py", "litevideo/csc/ycbcr2rgb.py"]}
{"id": "C26", "title": "Chroma downsampling pairs pixels correctly", "statement": "For a stream of 4:4:4 pixels without bubbles, YCbCr444to422 outputs each luma unchanged, the floor of the mean of the pair's Cb on the even pixel and of the pair's Cr on the odd pixel.", "quantifier": "every pixel sequence, every line start marker, every back-pressure schedule", "why_tests_cant": "All sequences and stall patterns.", "anchors": ["litevideo/csc/ycbcr444to422.py:YCbCr444to422Datapath"]}
{"id": "C27", "title": "Chroma upsampling under any back-pressure", "statement": "YCbCr422to444 outputs for input pixels (y0,cb),(y1,cr) the pixels (y0,cb,cr),(y1,cb,cr), in order, none lost or duplicated, for any valid/ready schedule, and never deadlocks.", "quantifier": "every pixel sequence and every valid/ready schedule", "why_tests_cant": "All handshake interleavings over three FIFOs.", "anchors": ["litevideo/csc/ycbcr422to444.py:YCbCr422to444"]}
{"id": "C28", "title": "Resampling chain preserves luma and pair-averages chroma", "statement": "4:4:4 -> 4:2:2 -> 4:4:4 returns every luma unchanged and for both pixels of a pair the floor of the pair's mean Cb and Cr.", "quantifier": "every pixel sequence of even length", "why_tests_cant": "All sequences.", "anchors": ["litevideo/csc/ycbcr444to422.py", "litevideo/csc/ycbcr422to444.py"]}
{"id": "C29", "title": "Pipelined converters are loss-free streams", "statement": "For every converter built on the pipelined actor (RGB2YCbCr, YCbCr2RGB, RGB16f2RGB, RGB2RGB16f, FloatAdd), the sequence of transferred outputs is the image of the sequence of transferred inputs under the converter's function, in order, with at most latency items in flight, for every valid/ready schedule, and every accepted item comes out once the consumer is ready often enough.", "quantifier": "every schedule of producer valid and consumer ready, every data sequence", "why_tests_cant": "All handshake interleavings.", "anchors": ["litevideo/csc/rgb2ycbcr.py:RGB2YCbCr", "litevideo/csc/ycbcr2rgb.py:YCbCr2RGB", "litevideo/csc/rgb16f2rgb.py:RGB16f2RGB", "litevideo/csc/rgb2rgb16f.py:RGB2RGB16f", "litevideo/float_arithmetic/floatadd.py:FloatAdd"]}
{"id": "C30", "title": "Half-precision product", "statement": "For two positive normal half floats whose product is a normal half float, FloatMult fed with constant operands returns the product rounded toward zero.", "quantifier": "every pair of operands", "why_tests_cant": "2^30 operand pairs.", "anchors": ["litevideo/float_arithmetic/floatmult.py:FloatMultDatapath"]}
{"id": "C31", "title": "Half-precision product, pipelined", "statement": "FloatMult accepts a new operand pair every clock and each result is the product of its own pair.", "quantifier": "every sequence of operand pairs", "why_tests_cant": "Depends on interactions between consecutive operands; the repo's bench repeats one pair.", "anchors": ["litevideo/float_arithmetic/floatmult.py:FloatMultDatapath"]}
{"id": "C32", "title": "Half-precision sum", "statement": "For two positive normal half floats whose sum is finite, FloatAdd returns the exact sum rounded toward zero (the largest half float not above it), on every stream of pairs and every valid/ready schedule.", "quantifier": "every pair of operands, every stream, every schedule", "why_tests_cant": "2^30 operand pairs.", "anchors": ["litevideo/float_arithmetic/floatadd.py:FloatAddDatapath"]}
{"id": "C33", "title": "Zero is neutral for half-precision addition", "statement": "FloatAdd returns x for x+0 and 0+x, in particular 0 for 0+0.", "quantifier": "every half float x", "why_tests_cant": "All 2^16 operands and both sides.", "anchors": ["litevideo/float_arithmetic/floatadd.py:FloatAddDatapath"]}
{"id": "C34", "title": "8-bit to half-float table is exact", "statement": "Each entry n of the lookup table used by PIX2PIXFLUT is the half float whose value is exactly n/256.", "quantifier": "all 256 entries", "why_tests_cant": "The table is finite; the claim is about the value of each entry and is the basis of C35.", "anchors": ["litevideo/csc/rgb2rgb16f.py:lookup_table", "litevideo/csc/rgb2rgb16f.py:PIX2PIXFLUT"]}
{"id": "C35", "title": "8-bit to half-float and back is the identity", "statement": "Converting a pixel with PIX2PIXFLUT and back with PIXF2PIXDatapath returns the pixel, on every stream.", "quantifier": "all pixels, every sequence", "why_tests_cant": "All values over all positions in a stream.", "anchors": ["litevideo/csc/rgb2rgb16f.py:PIX2PIXFLUT", "litevideo/csc/rgb16f2rgb.py:PIXF2PIXDatapath"]}
{"id": "C36", "title": "Half-float to 8-bit conversion is floor(256*v)", "statement": "For every non-negative half float v in the documented range [0, 1], RGB16f2RGB returns floor(256*v) saturated to 255.", "quantifier": "every half-float bit pattern in range", "why_tests_cant": "All bit patterns, including subnormals and the end point 1.0.", "anchors": ["litevideo/csc/rgb16f2rgb.py:PIXF2PIXDatapath"]}
{"id": "C37", "title": "RGB2RGB16f agrees with the reference table", "statement": "For every pixel the RGB2RGB16f converter returns the half float of value pixel/256, as the lookup table and the bench model do.", "quantifier": "all pixels", "why_tests_cant": "All values.", "anchors": ["litevideo/csc/rgb2rgb16f.py:PIX2PIXFDatapath", "litevideo/csc/rgb2rgb16f.py:RGB2RGB16f"]}
{"id": "C38", "title": "Video timing is exact for every mode and every stall pattern", "statement": "With parameters held, TimingGenerator's n-th accepted cycle has line n/(hscan+1) mod (vscan+1) and column n mod (hscan+1); de is 1 exactly hres*vres times per frame in the active rectangle, hsync is high for hsync_end-hsync_start cycles per line, and last comes exactly once per frame of (hscan+1)*(vscan+1) cycles.", "quantifier": "every parameter set with hres<=hscan, vres<=vscan, sync windows inside the scan, every ready schedule, all frames", "why_tests_cant": "All modes, all stall patterns, unbounded frames.", "anchors": ["litevideo/output/core.py:TimingGenerator"]}
{"id": "C39", "title": "Output DMA reads exactly the frame buffer", "statement": "For each parameter set accepted, DMAReader issues exactly length/(dw/8) reads at base/(dw/8)+0,1,2,... in order, each once, for every ready schedule, and accepts the parameters exactly on the last read.", "quantifier": "every base, every length >= one word, every schedule", "why_tests_cant": "All handshake interleavings and sizes.", "anchors": ["litevideo/output/core.py:DMAReader"]}
{"id": "C40", "title": "Each active output pixel is the next frame-buffer word", "statement": "In rgb/ycbcr422 mode the sequence of data on transferred active pixels of VideoOutCore is exactly the sequence of words returned by the DMA since enable, none lost or repeated, for any memory latency and any sink schedule; blanking cycles never consume a word.", "quantifier": "every memory response schedule and every sink ready schedule", "why_tests_cant": "All interleavings of memory, timing and sink.", "anchors": ["litevideo/output/core.py:VideoOutCore"]}
{"id": "C41", "title": "A frame-buffer switch takes effect on a frame boundary", "statement": "When software queues a new frame-buffer base, all pixels of each displayed frame come from one buffer.", "quantifier": "every schedule and parameter history", "why_tests_cant": "All interleavings of DMA prefetch and parameter hand-over.", "anchors": ["litevideo/output/core.py:VideoOutCore", "litevideo/output/core.py:DMAReader", "litevideo/output/core.py:Initiator"]}
{"id": "C42", "title": "The underflow counter counts every stalled output cycle", "statement": "While enabled, the underflow counter increases by exactly one on each clock whose output is not valid, and is 0 whenever disabled; update latches it.", "quantifier": "every history of enable/update/valid", "why_tests_cant": "Unbounded histories.", "anchors": ["litevideo/output/core.py:VideoOutCore"]}
{"id": "C43", "title": "Colour component routing from memory word to HDMI channel", "statement": "In rgb mode bits 0-7, 8-15, 16-23 of a memory word drive r, g, b and hence TMDS channels 2, 1, 0, with hsync/vsync on channel 0's control bits; in raw mode bits 0-9, 10-19, 20-29 drive the three channels; a receiver recovers the same r, g, b, hsync, vsync.", "quantifier": "every word and timing stream", "why_tests_cant": "All streams through three stateful encoders.", "anchors": ["litevideo/output/__init__.py:VideoOut", "litevideo/output/hdmi/s7.py:S7HDMIOutPHY", "litevideo/output/hdmi/s6.py:S6HDMIOutPHY"]}
{"id": "C44", "title": "ycbcr422 output keeps pixels aligned with data-enable", "statement": "In ycbcr422 mode, with an uninterrupted source, the n-th active cycle at the driver carries the RGB conversion of the n-th 4:2:2 pixel of the line.", "quantifier": "every line length and content", "why_tests_cant": "All lines; latency bookkeeping across four blocks.", "anchors": ["litevideo/output/__init__.py:VideoOut", "litevideo/output/__init__.py:TimingDelay", "litevideo/csc/ycbcr422to444.py", "litevideo/csc/ycbcr2rgb.py"]}
{"id": "C45", "title": "Colour bars", "statement": "With a free-running consumer ColorBarsPattern emits 8 bars of exactly hres/8 pixels, in the documented colour order, forever; when hres is a multiple of 8 all lines are identical.", "quantifier": "every hres >= 8, every pixel index", "why_tests_cant": "Unbounded streams and all resolutions.", "anchors": ["litevideo/output/pattern.py:ColorBarsPattern"]}
{"id": "C46", "title": "Line and dot patterns", "statement": "With a free-running consumer VerticalLinesPattern alternates black and white every pixel and DotsPattern emits a checkerboard (pixel white iff x+y odd) for every even hres.", "quantifier": "every pixel index, every even hres", "why_tests_cant": "Unbounded streams and all resolutions.", "anchors": ["litevideo/output/pattern.py:VerticalLinesPattern", "litevideo/output/pattern.py:DotsPattern"]}
{"id": "C47", "title": "Terminal sync timing", "statement": "Terminal's hsync and vsync repeat with the documented period (800 clocks per line, 521 lines per frame), with the documented pulse widths.", "quantifier": "all clocks from reset on", "why_tests_cant": "Unbounded time.", "anchors": ["litevideo/terminal/core.py:Terminal"]}
{"id": "C48", "title": "Terminal renders the text screen", "statement": "For every frame displayed while memory is not written, pixel (x,y) has the foreground colour of the character at column x/8, row y/16 if bit 7-(x mod 8) of line y mod 16 of its glyph is set, else its background colour, and everything outside the 640x480 area is black.", "quantifier": "every screen, colour and font content, every frame", "why_tests_cant": "2^(8*8896) memory contents.", "anchors": ["litevideo/terminal/core.py:Terminal"]}
{"id": "C49", "title": "Terminal memory is a plain bus-addressable RAM", "statement": "Any sequence of Wishbone accesses behaves like an array of bytes: each access is acknowledged after one clock, each acknowledged write stores exactly once, each read returns the last value written to that address.", "quantifier": "every sequence of bus transactions with any idle gaps", "why_tests_cant": "All transaction histories.", "anchors": ["litevideo/terminal/core.py:Terminal"]}
{"id": "C50", "title": "Pixel-clock programming frames are shifted out intact", "statement": "After software sends a 10-bit command the next 10 clocks carry its bits LSB first with program-enable high, then enable is low, and busy is reported for exactly 13 clocks; enable is otherwise high only during a go pulse.", "quantifier": "every command value, every history that respects busy", "why_tests_cant": "All values and command spacings.", "anchors": ["litevideo/output/hdmi/s6.py:S6HDMIOutClocking"]}
{"id": "C51", "title": "Leading-one detector", "statement": "LeadOne returns dw-1 minus the index of the most significant set bit for every non-zero input of every width, and 0 for zero.", "quantifier": "every width and every input", "why_tests_cant": "All widths.", "anchors": ["litevideo/float_arithmetic/common.py:LeadOne"]}
{"id": "C52", "title": "Pixels survive the link at any bit offset", "statement": "Pixels sent through Encoder, serialised LSB first, captured at an arbitrary bit offset, and passed through CharSync and Decoding come out unchanged once a control period of at least 10 words (required_controls+2) has been received.", "quantifier": "every offset, every pixel stream with that preamble", "why_tests_cant": "Composition of C01 and C05 over unbounded streams.", "anchors": ["litevideo/output/hdmi/encoder.py", "litevideo/input/charsync.py", "litevideo/input/decoding.py"]}
{"id": "C53", "title": "Captured frames reach memory intact", "statement": "In rgb capture mode, if no overflow occurs and a slot is loaded, the memory block of the slot ends up holding the packed active pixels of one frame in order, starting at the first pixel after vsync.", "quantifier": "every frame content, every interleaving of pixel clock, system clock and memory", "why_tests_cant": "Composition over two clock domains and all schedules.", "anchors": ["litevideo/input/analysis.py:FrameExtraction", "litevideo/input/dma.py:DMA"]}
{"id": "C54", "title": "Delay-tap busy flags cover the whole operation", "statement": "Spartan-6 delay control: after software that waits for the busy flag to read 0 requests a calibrate or a step, the delay element gets exactly that command and the busy flag reads 1 until the delay element has finished, and it is eventually cleared once the element is idle.", "quantifier": "every interleaving of clocks and every busy duration", "why_tests_cant": "All clock interleavings.", "anchors": ["litevideo/input/datacapture.py:S6DataCapture"]}
{"id": "C55", "title": "Dynamic-reconfiguration ready flag", "statement": "After software starts a PLL/MMCM register access, the drdy status reads 0 until the primitive reports ready, then 1 until the next access.", "quantifier": "every history of accesses and ready pulses", "why_tests_cant": "Unbounded histories.", "anchors": ["litevideo/output/hdmi/s7.py:S7HDMIOutClocking", "litevideo/output/hdmi/s6.py:S6HDMIOutClocking", "litevideo/input/clocking.py:S6Clocking", "litevideo/input/clocking.py:S7Clocking"]}
{"id": "C56", "title": "A mode change takes effect exactly at a frame boundary", "statement": "If a new timing parameter set is queued at any time, every frame is displayed entirely with one set: frame f has exactly the line length, active area and sync pulses of the f-th set, and the next set is consumed exactly once per frame.", "quantifier": "every sequence of display modes, every ready schedule, all frames", "why_tests_cant": "All mode sequences and stall patterns over unbounded frames.", "anchors": ["litevideo/output/core.py:TimingGenerator", "litevideo/output/core.py:Initiator"]}
{"id": "C57", "title": "Raw mode streams memory words without gaps", "statement": "In raw mode every transferred beat, blanking included, carries the next memory word.", "quantifier": "every memory response schedule and every sink ready schedule", "why_tests_cant": "All interleavings of memory, timing and sink.", "anchors": ["litevideo/output/core.py:VideoOutCore"]}
{"id": "C58", "title": "Pattern generators obey the stream handshake", "statement": "A pattern generator holds the pixel it offers until the consumer takes it and then offers the next pixel, so the sequence of pixels taken does not depend on when the consumer stalls.", "quantifier": "every ready schedule, every hres >= 8", "why_tests_cant": "All stall patterns over unbounded streams.", "anchors": ["litevideo/output/pattern.py:ColorBarsPattern", "litevideo/output/pattern.py:VerticalLinesPattern", "litevideo/output/pattern.py:DotsPattern"]}
{"id": "C59", "title": "VGA components show the most significant bits", "statement": "An n-bit VGA component pad carries the 8-bit component rounded down to a multiple of 2^(8-n); the mapping is monotone and keeps full scale.", "quantifier": "every component value, every pad width n <= 8", "why_tests_cant": "All widths.", "anchors": ["litevideo/output/driver.py:VGAPHY"]}
{"id": "C60", "title": "From the frame buffer to the HDMI receiver", "statement": "In rgb mode, whenever the output core has data for the pixel it is at, a receiver decoding the three TMDS lanes sees 5 clocks later that pixel's data-enable, and the colour bytes stored in memory at the pixel's address (active area) or its hsync/vsync (blanking).", "quantifier": "every display mode, every frame buffer content, every memory latency schedule, all frames", "why_tests_cant": "Composition of DMA, timing generator, FIFO and three stateful encoders over all schedules.", "anchors": ["litevideo/output/__init__.py:VideoOut", "litevideo/output/core.py:VideoOutCore", "litevideo/output/hdmi/encoder.py:Encoder"]}
{"id": "C61", "title": "Genlocked reader fetches one buffer per external frame", "statement": "With genlock the DMA reader reads, for each accepted parameter set, exactly the buffer words from delay_base to the end, in order and once, starts no buffer but the first without a new vsync rising edge, and never stops while parameters, memory and vsync keep coming.", "quantifier": "every schedule of parameters, memory and vsync, every delay_base below the buffer length", "why_tests_cant": "All interleavings over unbounded frames.", "anchors": ["litevideo/output/core.py:DMAReader"]}
{"id": "C62", "title": "The output core uses snapshots of the parameter registers, in order and at most four late", "statement": "Every parameter set the output core receives is the content of all parameter CSRs at one instant at which the initiator was enabled; sets arrive in order without omission, and after software stops changing the CSRs at most four more old sets are received.", "quantifier": "every relation of the two clocks, every FIFO flag delay, every history of register writes", "why_tests_cant": "All clock interleavings.", "anchors": ["litevideo/output/core.py:Initiator"]}
{"id": "C63", "title": "A mode change written register by register is atomic", "statement": "When software replaces one parameter set by another with several register writes, the core never uses a set mixing values of both.", "quantifier": "every relation of the two clocks and of software and core", "why_tests_cant": "All interleavings of software writes and FIFO writes.", "anchors": ["litevideo/output/core.py:Initiator"]}
{"id": "C64", "title": "Channel alignment recovers from any disturbance", "statement": "Whatever the internal state (after a glitch, a cable change or a phase jump), if the skew between channels is below the buffer depth, then the first control word of the slowest channel after one complete active period of at least depth + skew words aligns all channels for good.", "quantifier": "every internal state, every skew below the buffer depth, every number of channels and buffer depth, every content", "why_tests_cant": "All states and all histories.", "anchors": ["litevideo/input/chansync.py:ChanSync", "litevideo/input/chansync.py:_SyncBuffer"]}
{"id": "C65", "title": "chan_synced is only reported when the channels are aligned", "statement": "When chan_synced is 1 all outputs of ChanSync carry the same source word.", "quantifier": "every source, skew and moment", "why_tests_cant": "All histories, including start-up.", "anchors": ["litevideo/input/chansync.py:ChanSync"]}
{"id": "C66", "title": "A loss after software's overflow reset is reported", "statement": "If a capture word is lost after software's last write to the overflow register, software eventually reads 1 from it.", "quantifier": "every relation of the pixel and system clocks, every software timing", "why_tests_cant": "All interleavings of two clock domains and software.", "anchors": ["litevideo/input/analysis.py:FrameExtraction"]}
{"id": "C67", "title": "Every active pixel is captured", "statement": "If the number of active pixels of a frame is a multiple of the number of pixels per memory word, every active pixel of the frame appears in a captured word.", "quantifier": "every word width that is a positive multiple of the pixel width, every frame", "why_tests_cant": "All configurations and frames.", "anchors": ["litevideo/input/analysis.py:FrameExtraction"]}
{"id": "C68", "title": "Resetting the overflow flag clears it at once", "statement": "After software writes the overflow register (no earlier reset being under way), it reads 0 from the next system clock on, at every instant, as long as no further word is lost; the stale flag is never seen again while the reset crosses to the pixel clock domain and back.", "quantifier": "every relation of the two clocks", "why_tests_cant": "All interleavings of two clock domains.", "anchors": ["litevideo/input/analysis.py:FrameExtraction"]}
{"id": "C69", "title": "A frame size below one memory word captures nothing", "statement": "With frame_size smaller than one memory word the DMA writes no word to memory.", "quantifier": "every stream, every slot configuration", "why_tests_cant": "All schedules.", "anchors": ["litevideo/input/dma.py:DMA"]}
{"id": "C70", "title": "A captured block holds one frame only", "statement": "Of the words written for one slot only the first is a start of frame: a block never continues with words of the next frame, however short the frame was.", "quantifier": "every frame stream, including frames shorter than frame_size", "why_tests_cant": "All streams.", "anchors": ["litevideo/input/dma.py:DMA"]}
{"id": "C71", "title": "No frame is dropped while a slot is loaded", "statement": "While the DMA is waiting for a frame and some slot is LOADED, a start-of-frame word is not discarded.", "quantifier": "every schedule of the stream, the memory and software", "why_tests_cant": "All interleavings.", "anchors": ["litevideo/input/dma.py:DMA", "litevideo/input/dma.py:_SlotArray"]}
{"id": "C72", "title": "Without a loaded slot the capture stream is drained", "statement": "While no slot is LOADED the DMA accepts every word of the frame stream and writes nothing, so that waiting for software does not make the capture FIFO overflow.", "quantifier": "every schedule", "why_tests_cant": "All interleavings.", "anchors": ["litevideo/input/dma.py:DMA"]}
{"id": "C73", "title": "EDID pulls SDA low only shortly after SCL was low", "statement": "Whenever EDID starts to pull SDA low, SCL was low at most 67 system clocks before, so a master whose SCL high phases are longer never sees EDID make a START of its own later in them.", "quantifier": "every waveform on both pads, every use of the hot-plug enable, every memory content", "why_tests_cant": "All bus waveforms.", "anchors": ["litevideo/input/edid.py:EDID"]}
{"id": "C74", "title": "Phase flags read after a phase reset are about events after it", "statement": "After software has written the phase reset, too_late and too_early read 1 only because of phase events that occurred after the reset, and never both read 1.", "quantifier": "every event sequence, every relation of the capture clock and the system clock, every ntbits", "why_tests_cant": "All interleavings of two clock domains and unbounded event sequences.", "anchors": ["litevideo/input/datacapture.py:S6DataCapture", "litevideo/input/datacapture.py:S7DataCapture"]}
{"id": "C75", "title": "The Spartan-6 deserialiser loses no bit", "statement": "The 10-bit words of S6DataCapture are the serial bits in order of arrival, least significant first (complemented on an inverted pad), consecutive words being adjacent.", "quantifier": "every bit stream, every time", "why_tests_cant": "All streams.", "anchors": ["litevideo/input/datacapture.py:S6DataCapture"]}
{"id": "C76", "title": "Captured pixels are the pixels of the video period", "statement": "With hdmi=True the receiver outputs data-enable together with the colour of the word it belongs to: in HDMI mode every pixel between a video guard band and the following control period is output once, and nothing else is; in DVI mode (dvimode=1) likewise for every word that is not a control word.", "quantifier": "every stream of a conforming source, both modes", "why_tests_cant": "All streams.", "anchors": ["litevideo/input/__init__.py:HDMIIn", "litevideo/input/__init__.py:TimingDelayChannel", "litevideo/input/decoding.py:DecodeTERC4"]}
{"id": "C77", "title": "TERC4 words decode to the nibbles of the HDMI specification", "statement": "Each channel of the TERC4 decoder outputs the 4-bit value that the HDMI specification assigns to the received TERC4 word, and keeps its output for any other word. It reports the two control bits of a control word and recognises the guard words of its channel; a word that is not valid reports nothing.", "quantifier": "every word, every channel, every state", "why_tests_cant": "All words and states.", "anchors": ["litevideo/input/decoding.py:DecodeTERC4Channel"]}
{"id": "C78", "title": "Text written over the bus is what the terminal shows", "statement": "If software's last acknowledged writes left a screen and font in the terminal's memory before a frame starts and it writes nothing during the frame, every pixel of that frame shows that screen with that font, whatever the relation of the bus clock and the video clock.", "quantifier": "every history of bus accesses, every relation of the two clocks, every frame and pixel", "why_tests_cant": "Unbounded histories, two asynchronous clocks.", "anchors": ["litevideo/terminal/core.py:Terminal"]}
{"id": "C79", "title": "Terminal memory initialisation", "statement": "The terminal accepts a screen or font file iff it has exactly the documented size; the memory then starts with the screen bytes at address 0 and the font bytes at 0x12c0, and with zeros for an empty file name.", "quantifier": "every file content and length", "why_tests_cant": "All lengths and contents.", "anchors": ["litevideo/terminal/core.py:read_ram_init_file", "litevideo/terminal/core.py:Terminal"]}
{"id": "C80", "title": "The receiver locks onto a transmitter and reproduces its video", "statement": "HDMIIn (DVI mode), connected to the library's HDMI encoders by three lanes with any bit delays at most seven words apart, reproduces the transmitter's video with a constant latency after the first ten blanking clocks and the next line of at least 15 pixels: data-enable always, the colours in active clocks, and the syncs as active-high pulses whatever their polarity.", "quantifier": "every video stream, every lane delay within the range, every bit sequence before the signal", "why_tests_cant": "All streams, delays and start-up histories.", "anchors": ["litevideo/input/__init__.py:HDMIIn", "litevideo/input/charsync.py:CharSync", "litevideo/input/chansync.py:ChanSync", "litevideo/input/analysis.py:SyncPolarity", "litevideo/output/hdmi/encoder.py:Encoder"]}
{"id": "C81", "title": "The receiver reports the resolution being sent", "statement": "After lock, hres reads the number of pixels of the last complete line and vres the number of lines between the last two starts of vertical sync of the transmitter's video (modulo 2^11).", "quantifier": "every video stream with standard syncs, every lane delay within the range", "why_tests_cant": "All streams and delays.", "anchors": ["litevideo/input/__init__.py:HDMIIn", "litevideo/input/analysis.py:ResolutionDetection"]}
{"id": "C82", "title": "No word errors are reported on an error-free link", "statement": "Once the lanes are aligned, the word error rate of all three lanes reads zero over every measurement period, at any lane delay.", "quantifier": "every video stream, every lane delay, every period", "why_tests_cant": "Unbounded time, all streams.", "anchors": ["litevideo/input/__init__.py:HDMIIn", "litevideo/input/wer.py:WER"]}
{"id": "C83", "title": "Capture can be started at any time", "statement": "Whatever the input and software did before (unplugged cable, overflow, other frame sizes), once the capture path is idle and empty and a complete frame of a steady source has been received, every transfer reported done afterwards has put the first frame_size bytes of one single frame, from its first pixel, into the slot's memory, in rgb and in ycbcr422 mode.", "quantifier": "every history before the start, every video, every clock relation, every bus and FIFO timing, both modes", "why_tests_cant": "Unbounded histories, two asynchronous clocks.", "anchors": ["litevideo/input/analysis.py:FrameExtraction", "litevideo/input/dma.py:DMA", "litevideo/input/__init__.py:HDMIIn"]}
{"id": "C84", "title": "Pictures sent by the library's transmitter arrive in the receiver's memory", "statement": "HDMIIn with a memory port, connected to the library's HDMI encoders by lanes with any delays at most seven words apart, stores the first frame_size bytes of the pixels of one transmitted frame, in raster order from the first pixel after the start of vertical sync and in the configured pixel format, in each slot it reports done, whatever the sync polarities and whatever was received before.", "quantifier": "every transmitted video with standard syncs, every lane delay, every clock relation, bus and FIFO timing, both modes", "why_tests_cant": "All videos and schedules of three clock domains.", "anchors": ["litevideo/input/__init__.py:HDMIIn", "litevideo/output/hdmi/encoder.py:Encoder"]}
{"id": "C85", "title": "A frame buffer displayed to a receiver arrives in the receiver's memory", "statement": "A frame buffer displayed by VideoOut in rgb mode, in any usual display mode, over lanes with any delays at most seven words apart, to HDMIIn with a memory port: four frames after the output is supplied with data in time, each slot that HDMIIn reports done holds exactly the picture in the frame buffer, every pixel in raster order with its red, green and blue (or its 4:2:2 value in ycbcr422 mode).", "quantifier": "every display mode with at least 15 pixels per line, every picture and buffer address, every memory latency, lane delay, clock relation, bus and FIFO timing, both capture modes", "why_tests_cant": "All pictures, modes and schedules of both devices together.", "anchors": ["litevideo/output/core.py:VideoOutCore", "litevideo/output/__init__.py:VideoOut", "litevideo/input/__init__.py:HDMIIn"]}
{"id": "C86", "title": "A captured frame buffer can be displayed", "statement": "A frame stored by HDMIIn and displayed by VideoOut in the same mode has the colours it had: in rgb mode exactly; in ycbcr422 mode each pixel has its own luma and the mean chroma of its pair of pixels.", "quantifier": "every picture", "why_tests_cant": "All colours; needs capture and display together.", "anchors": ["litevideo/input/analysis.py:FrameExtraction", "litevideo/output/__init__.py:VideoOut"]}
{"id": "C87", "title": "A loaded slot is filled", "statement": "If a slot has been made LOADED while capture is idle, frames keep coming, the clocks, the FIFO and the memory bus stay alive, no overflow occurs and software loads no other slot meanwhile, then the slot is eventually reported done, and it then holds the first frame_size bytes of one frame; if software does load other slots, some slot is still done.", "quantifier": "every video, clock ratio, bus schedule, number of slots and set of loaded slots", "why_tests_cant": "Liveness: no finite run shows that something eventually happens under every fair schedule.", "anchors": ["litevideo/input/dma.py:DMA", "litevideo/input/dma.py:_SlotArray", "litevideo/input/analysis.py:FrameExtraction"]}
{"id": "C88", "title": "Double buffering does not starve a slot", "statement": "With two slots (the default) a loaded slot is filled whatever software does with the other, after at most one transfer to the other.  With more slots a loaded slot is never filled as long as at every moment a slot with a lower number is loaded.", "quantifier": "every video, clock ratio, bus schedule and history of software writes", "why_tests_cant": "Starvation and its absence concern infinite runs.", "anchors": ["litevideo/input/dma.py:_SlotArray", "litevideo/input/dma.py:DMA"]}
{"id": "C89", "title": "The serial link keeps every word in order", "statement": "On each TMDS pair a transmitter of either family sends the encoder's 10-bit words (or the words of the raw stream) back to back, least significant bit first, and on the clock pair one period per word, high in its first half; a Spartan-6 receiver with two 2x clocks per pixel clock delivers the bits of the pair with a constant delay.  Pads of both ends may be wired with exchanged conductors if they are marked as inverted.", "quantifier": "every sequence of words, polarity of every pad, line delay of any number of bits, and interleaving of clock edges with two 2x edges per pixel clock", "why_tests_cant": "The guarantee is about unbounded streams at every bit phase and for every combination of pad polarities, and concerns two designs at once.", "anchors": ["litevideo/output/hdmi/s6.py:_S6HDMIOutEncoderSerializer", "litevideo/output/hdmi/s7.py:S7HDMIOutEncoderSerializer", "litevideo/output/hdmi/s7.py:S7HDMIOutClocking", "litevideo/output/hdmi/s6.py:S6HDMIOutClocking", "litevideo/input/datacapture.py:S6DataCapture"]}
{"id": "C90", "title": "The 7-series receiver delivers the serial stream", "statement": "A 7-series receiver whose 1.25x clock and pixel clock stay in step (within the 30 to 40 bits of the gearbox) delivers the bits of each pair, ten per pixel clock, with a constant delay and whatever the polarity of the pad; the two samples compared by the phase detector are true bits of the pair for both polarities.", "quantifier": "every sequence of words, pad polarity, line delay and schedule of the two clocks within the bounds", "why_tests_cant": "Loss or repetition at the boundary of two clock domains depends on the schedule of edges, of which tests run a few.", "anchors": ["litevideo/input/datacapture.py:S7DataCapture"]}
{"id": "C91", "title": "A displayed picture is delivered to a loaded slot", "statement": "A frame buffer displayed by the output core through a transmitter of either family is eventually found, pixel for pixel, in a slot that software has loaded in a receiver of either family, provided frames are supplied in time, the clocks and the memory bus stay alive and no overflow occurs.", "quantifier": "every video mode, picture, device family at both ends, pad polarity, lane skew up to 70 bits, clock ratio and bus schedule", "why_tests_cant": "Total correctness of two complete designs connected by a serial link; no finite set of runs covers the modes, pictures, skews and schedules.", "anchors": ["litevideo/output/core.py:VideoOutCore", "litevideo/output/driver.py:Driver", "litevideo/input/__init__.py:HDMIIn", "litevideo/input/dma.py:DMA", "litevideo/input/datacapture.py:S6DataCapture", "litevideo/input/datacapture.py:S7DataCapture"]}
{"id": "C92", "title": "Delay lines follow software exactly", "statement": "On a 7-series receiver every write to the delay control moves the addressed delay line exactly as asked, once: if three capture clocks pass between two commands for a line, its tap count is that obtained by carrying out all writes in order (reset, up, down, modulo 32), and commands for the other line have no effect on it.", "quantifier": "every sequence of writes and every interleaving of system and capture clock edges with that spacing", "why_tests_cant": "A lost or doubled step depends on the relative timing of two unrelated clocks over the whole history.", "anchors": ["litevideo/input/datacapture.py:S7DataCapture"]}
{"id": "C93", "title": "The word error rate read by software is that of one whole period", "statement": "After an update request the value register holds, until the next request, the number of erroneous words of a complete period: the latest one handed over, if three system clocks have passed since, or else the one before; never a partial or mixed count.  Before the first period has ended it reads 0.", "quantifier": "every sequence of received words, period length and interleaving of pixel and system clock edges with three system clocks in every period", "why_tests_cant": "Consistency of a multi-bit value over two unrelated clocks depends on the alignment of their edges in every period.", "anchors": ["litevideo/input/wer.py:WER"]}
{"id": "C94", "title": "No finished frame is forgotten by the interrupt", "statement": "At every clock the capture interrupt is raised exactly if some enabled slot has finished a transfer (or was marked pending by software) and has not been acknowledged since; in particular from the completion of a transfer until software writes that slot's status.", "quantifier": "every history of frames, software writes and enable settings, at every clock", "why_tests_cant": "A lost interrupt depends on the coincidence of a completion with a software write, anywhere in an unbounded history.", "anchors": ["litevideo/input/dma.py:_Slot", "litevideo/input/dma.py:_SlotArray", "litevideo/input/__init__.py:HDMIIn"]}
{"id": "C95", "title": "Status registers read values that were measured", "statement": "What software reads in a status register of the receiver (lock flags, bit offset, resolution) is a value the receiver really had.", "quantifier": "every history of the source, interleaving of the two clocks, and choice of early or late sampling of each bit at coincident edges", "why_tests_cant": "Torn reads need a change of the source at the very instant of a system clock edge, which simulation of aligned clocks does not produce.", "anchors": ["litevideo/input/charsync.py:CharSync", "litevideo/input/chansync.py:ChanSync", "litevideo/input/analysis.py:ResolutionDetection"]}
{"id": "C96", "title": "Software eventually reads the true state of a locked receiver", "statement": "When a source sends pictures of constant size, from some instant on and for ever software reads that all lanes and the channels are synchronised, the true bit offset of every lane, and the resolution of the pictures.", "quantifier": "every picture size below 2048 by 2048, standard timing, content, lane delays up to 70 bits apart, clock ratio and sampling at coincident edges", "why_tests_cant": "The claim is about an infinite future of the complete receiver, for every mode and delay.", "anchors": ["litevideo/input/__init__.py:HDMIIn", "litevideo/input/charsync.py:CharSync", "litevideo/input/chansync.py:ChanSync", "litevideo/input/analysis.py:ResolutionDetection"]}
{"id": "C97", "title": "A memory that keeps up loses no captured word", "statement": "If, whenever the capture FIFO holds data during the arrival of any B words of pixels, the memory gets B turns to take a word, the FIFO never holds more than B words; and if the FIFO is deeper than that plus the words that arrive during the lag of its flags, no captured word is ever lost, the overflow register reads 0 for ever, and every LOADED slot is filled with a whole frame.", "quantifier": "every video, software behaviour, relation of the two clocks and bus schedule that meets the bandwidth condition, at every instant of an unbounded run", "why_tests_cant": "FIFO occupancy depends on the whole history of bus stalls and clock ratio; simulation shows overflow freedom for one schedule only.", "anchors": ["litevideo/input/analysis.py:FrameExtraction", "litevideo/input/dma.py:DMA", "litevideo/input/__init__.py:HDMIIn"]}
{"id": "C98", "title": "A memory that is fast enough never lets the display starve", "statement": "If the memory answers each read within L clocks and refuses commands at no more than r clocks of any line time, the horizontal blanking is at least r + 2 clocks and the reader's FIFO is deeper than L + r + 2 words, then L + r + 3 line times after reset the output delivers a pixel at every clock, for ever, and an underflow counter cleared after that time reads 0.", "quantifier": "every display mode, frame buffer, and memory behaviour within the limits, at every clock of an unbounded run", "why_tests_cant": "Underflow depends on the accumulated effect of latencies and refusals over lines and frames; a test exercises one pattern of stalls.", "anchors": ["litevideo/output/core.py:VideoOutCore", "litevideo/output/core.py:DMAReader", "litevideo/output/core.py:TimingGenerator"]}
{"id": "C99", "title": "A displayed picture reaches a LOADED slot, given only fast enough memories", "statement": "With an output memory as in C98, the link of C91, and a capture memory as in C97, a slot that software has LOADED while the capture path is at rest, after the start-up time, is at some instant done and holds exactly the frame buffer (rgb mode) or its 4:2:2 form (ycbcr422 mode); no assumption is made about underflow or overflow.", "quantifier": "every video mode, picture, device family at both ends, pad polarity, lane skew up to 70 bits, clock ratio, and memory schedules within the limits", "why_tests_cant": "End-to-end total correctness of two complete designs with only environment assumptions, for an unbounded set of modes, pictures and schedules.", "anchors": ["litevideo/output/core.py:VideoOutCore", "litevideo/output/driver.py:Driver", "litevideo/input/__init__.py:HDMIIn", "litevideo/input/dma.py:DMA", "litevideo/input/analysis.py:FrameExtraction"]}
{"id": "C100", "title": "The clock-crossing FIFO is a queue that lags by two clocks", "statement": "The asynchronous FIFO between the video clock and the system clock accepts and delivers words like a queue of its depth: it delivers the accepted words in order, each once, never offers a word it does not have and never accepts one it has no room for; it refuses a word only if the queue would be full were nothing taken in the last two write clocks, and hides a word for at most two read clocks. The capture path with this FIFO writes to memory what it would write with an ideal queue.", "quantifier": "every depth that is a power of two, word type, content of the memory at power-up, interleaving of the two clocks, sequence of requests, and choice of early or late sampling of each counter bit at coincident edges", "why_tests_cant": "Clock-crossing errors appear only for particular coincidences of unrelated clocks; simulation with fixed clock ratios and ideal sampling cannot produce them.", "anchors": ["litevideo/input/analysis.py:FrameExtraction", "litevideo/output/core.py:Initiator"]}
{"id": "C101", "title": "Loss of the input clock does not corrupt memory", "statement": "Whatever the input clock does (lock lost and regained at any time), the words the capture DMA writes to memory are words that were captured, in their order, each at most once; words may be missing.", "quantifier": "every history of lock and loss of lock, video, software behaviour, clocks and bus schedule, FIFO depth and packing factor", "why_tests_cant": "The claim quantifies over the instant of the loss relative to the FIFO pointers and the DMA state; hardware tests unplug a cable a few times and look at the picture.", "anchors": ["litevideo/input/clocking.py:S7Clocking", "litevideo/input/clocking.py:S6Clocking", "litevideo/input/analysis.py:FrameExtraction", "litevideo/input/dma.py:DMA"]}
{"id": "C102", "title": "The receiver recovers from any state", "statement": "HDMIIn (DVI mode) needs no reset to lock: whatever its registers and buffer memories contain (after another source, a disconnected cable, a change of resolution or a glitch on the clock), after ten blanking clocks and the next line of at least 15 pixels of a transmitter it reproduces the transmitter's video and reports its resolution exactly as after a reset, and its word error counters read zero two periods later.", "quantifier": "every content of the registers and memories, every history of the received bits before, every video stream and lane delay within the range", "why_tests_cant": "Quantifies over all states of the receiver; tests start from reset.", "anchors": ["litevideo/input/__init__.py:HDMIIn", "litevideo/input/charsync.py:CharSync", "litevideo/input/chansync.py:ChanSync", "litevideo/input/analysis.py:SyncPolarity", "litevideo/input/analysis.py:ResolutionDetection", "litevideo/input/wer.py:WER"]}
{"id": "C103", "title": "A parameter update reaches the output core", "statement": "From the time software has written a parameter set and the initiator is enabled, at most four other sets are received by the output core, and the new set is received, and received again for every later frame, as long as both clocks run and the core goes on taking sets.", "quantifier": "every relation of the two clocks, every choice of early or late sampling of each synchroniser bit, every content of the clock-crossing FIFO at the time of the update", "why_tests_cant": "Liveness across two unrelated clocks, from every state of the FIFO.", "anchors": ["litevideo/output/core.py:Initiator", "litevideo/output/core.py:TimingGenerator"]}
{"id": "C104", "title": "The VGA connector shows the frame buffer", "statement": "With a VGA connector in rgb mode, during every pixel the sync pads are low exactly inside the sync pulses of the mode, the power-save pad keeps the monitor awake, and during active pixels the colour pads show the bytes of the frame buffer word of that pixel to the precision of the pads.", "quantifier": "every display mode, frame buffer content, memory latency, schedule, and pad widths up to 8 bits", "why_tests_cant": "All modes, pictures and memory schedules.", "anchors": ["litevideo/output/driver.py:VGAPHY", "litevideo/output/driver.py:Driver", "litevideo/output/core.py:VideoOutCore"]}
{"id": "C105", "title": "The VGA connector is black during blanking", "statement": "Outside the active area the colour pads of a VGA connector are at black level (analogue monitors take their black reference there).", "quantifier": "every display mode, frame buffer content, memory latency and schedule", "why_tests_cant": "All pictures and modes; a test picture with black borders does not show the difference.", "anchors": ["litevideo/output/driver.py:VGAPHY", "litevideo/output/core.py:VideoOutCore"]}
{"id": "C106", "title": "A mode change completes", "statement": "When software writes a new valid display mode and leaves the output enabled, then, whatever modes (even nonsensical ones) the registers held before and wherever the change falls in a frame, the output becomes the raster of the new mode after finite time and stays so for ever without interruption, as long as both clocks run, the driver takes pixels and the memory answers.", "quantifier": "every history of register values, every instant of the change, every relation of the two clocks with at least five system clocks per frame, every memory latency and schedule", "why_tests_cant": "Convergence from every earlier mode and every phase of both clocks; nonsensical intermediate modes make the counters run around.", "anchors": ["litevideo/output/core.py:VideoOutCore", "litevideo/output/core.py:Initiator", "litevideo/output/core.py:TimingGenerator", "litevideo/output/core.py:DMAReader"]}
{"id": "C107", "title": "Enabling the output shows the picture from its first pixel", "statement": "Whenever the output starts (for the first time, or again after it was disabled), the first active pixel shows the first word of the frame buffer, and every later one its own word.", "quantifier": "every instant of disabling and enabling, every display mode, frame buffer content, memory latency and schedule", "why_tests_cant": "Depends on when the output is enabled again relative to what the memory reader is doing at that time.", "anchors": ["litevideo/output/core.py:VideoOutCore", "litevideo/output/core.py:DMAReader", "litevideo/output/core.py:TimingGenerator"]}
{"id": "C108", "title": "The phase status never points the wrong way", "statement": "7-series receiver: after a phase reset, sampling too early is never reported as too late and sampling too late is never reported as too early, whatever pixels are sent, so that software that moves the delay in the direction of the report approaches the middle of the bit.", "quantifier": "every sequence of pixels, every alignment of the receiver's groups of eight bits to the transmitter's words, every width of the accumulator, every schedule of the clocks", "why_tests_cant": "The report is an accumulation over an unbounded stream of data; the wrong direction needs particular sequences of pixels.", "anchors": ["litevideo/input/datacapture.py:S7PhaseDetector", "litevideo/input/datacapture.py:S7DataCapture"]}
{"id": "C109", "title": "Bit errors in pixels damage the colours they hit and nothing else", "statement": "While a receiver shows a picture, wrong bits in active video (in any number, at least 40 bits apart on the same lane) change the colour component of the pixel whose word they hit and nothing else: data-enable, syncs, valid flag, all other pixels, the measured resolution and the alignment of the lanes are not affected.", "quantifier": "every picture, every delay and skew of the lanes up to 70 bits, every set of error positions of this kind, every clock, any state of the receiver and anything received before", "why_tests_cant": "A damaged word could look like a control word, or damaged words could look like control words at another bit offset and move the alignment; no test covers all pictures and error positions.", "anchors": ["litevideo/input/charsync.py:CharSync", "litevideo/input/decoding.py:Decoding", "litevideo/input/chansync.py:ChanSync", "litevideo/input/analysis.py:SyncPolarity"]}
{"id": "C110", "title": "Transmission errors are forgotten", "statement": "Whatever the three lanes carried before (any errors, in blanking or in pixels, in any number), once they arrive intact the receiver shows the picture correctly after ten blanking clocks, the next line of at least 15 pixels and the end of another line.", "quantifier": "every history of bits on the three lanes, every state of the receiver, every picture, every delay and skew up to 70 bits", "why_tests_cant": "The histories are unbounded; an alignment that once went wrong must not persist.", "anchors": ["litevideo/input/__init__.py:HDMIIn", "litevideo/input/charsync.py:CharSync", "litevideo/input/chansync.py:ChanSync"]}
{"id": "C111", "title": "A damaged clock does not affect the others", "statement": "When the words of a single clock are damaged in any way while a receiver shows a picture, all other clocks are shown correctly and flagged valid.", "quantifier": "every picture, every clock, every damage of that clock", "why_tests_cant": "The effect depends on the state of the channel synchroniser and on whether the damaged words look like blanking.", "anchors": ["litevideo/input/chansync.py:ChanSync", "litevideo/input/decoding.py:Decoding"]}
{"id": "C112", "title": "A wrong sync level is shown in its clock only", "statement": "While the receiver is locked, if a control word of lane 0 arrives as another control word (a wrong sync level, one flipped bit), the sync outputs of all other blanking clocks are those that were sent; and errors that do not confuse pixels and control words leave the data-enable, the validity and all colours that arrive intact alone.", "quantifier": "every video with standard syncs, every lane delay, every receiver state, every error pattern that turns control words into control words and pixels into non-control words, every later clock", "why_tests_cant": "The effect depends on which clock of a blanking interval is hit; a test that flips a random bit rarely hits the one clock after a line that sets the polarity.", "anchors": ["litevideo/input/analysis.py:SyncPolarity", "litevideo/input/decoding.py:Decoding", "litevideo/input/charsync.py:CharSync", "litevideo/input/chansync.py:ChanSync"]}
{"id": "C113", "title": "A film arrives in order, each frame whole", "statement": "While a source sends a film (every frame another picture) and no overflow occurs, each transfer to memory that is reported done has brought exactly one picture of the film to its slot, all its pixels and none of another picture; the picture was on its way between the time capture was started and the completion; and transfers that are done later bring later pictures, so none is repeated and none overtakes another.", "quantifier": "every mode, every film, every lane delay and alignment, every schedule of both clocks, FIFO and bus, every number and state of slots, every pair of transfers", "why_tests_cant": "Order can break only for particular coincidences of frame starts, slot changes and FIFO contents over long runs; tests watch a few frames of one picture.", "anchors": ["litevideo/input/dma.py:DMA", "litevideo/input/dma.py:_SlotArray", "litevideo/input/analysis.py:FrameExtraction", "litevideo/input/__init__.py:HDMIIn"]}
{"id": "C114", "title": "Bit errors reach memory only as wrong colours", "statement": "If bits of pixels arrive wrong, those of one lane at least 40 bits apart, pictures keep arriving whole, in order and without being held up, and the only difference in memory is in the colours whose own bits were hit; in 4:2:2 also in the chroma of the pair they belong to.", "quantifier": "every mode, every film, every number and place of wrong pixel bits that far apart, on all lanes at once, every lane delay, every schedule of clocks, FIFO and bus", "why_tests_cant": "Error patterns are unbounded; the sensitive ones, which look like control words or shift a frame, are rare in random tests.", "anchors": ["litevideo/input/decoding.py:Decoding", "litevideo/input/charsync.py:CharSync", "litevideo/input/chansync.py:ChanSync", "litevideo/input/analysis.py:FrameExtraction", "litevideo/input/dma.py:DMA"]}
{"id": "C115", "title": "The capture path writes only to memory that software has lent", "statement": "Whatever software does with the slots and whatever arrives at the input, every word the DMA writes goes to an address within the first frame_size bytes of a slot that was LOADED at some earlier clock; memory that has never been part of a LOADED slot keeps its contents.  frame_size must be at least one memory word.", "quantifier": "every sequence of register writes, including writes to LOADED slots, every video, every schedule of clocks, FIFO and bus, every number of slots, address width and alignment", "why_tests_cant": "A stray write damages unrelated memory; the schedules of software writes against transfers are unbounded.", "anchors": ["litevideo/input/dma.py:DMA", "litevideo/input/dma.py:_SlotArray", "litevideo/input/dma.py:_Slot"]}
{"id": "C116", "title": "A slot can be taken back, and is reported done only if it has been filled", "statement": "When software takes a LOADED slot back by writing its status register, its memory is not written any more; and a slot is marked PENDING only if a frame has been written to it.", "quantifier": "every sequence of register writes, including writes to LOADED slots, every schedule of frames, bus and software", "why_tests_cant": "The outcome depends on the clock at which software writes relative to a transfer.", "anchors": ["litevideo/input/dma.py:DMA", "litevideo/input/dma.py:_SlotArray", "litevideo/input/dma.py:_Slot"]}
{"id": "C117", "title": "A captured picture stays in memory until its memory is lent again", "statement": "After a slot has been reported done its picture stays in memory as long as no LOADED slot overlaps it, whatever else software does and whatever else is captured in other slots.", "quantifier": "every later history: videos, register writes, schedules of clocks, FIFO and bus", "why_tests_cant": "Histories after the capture are unbounded.", "anchors": ["litevideo/input/dma.py:DMA", "litevideo/input/__init__.py:HDMIIn"]}
{"id": "C118", "title": "The clocks of the capture blocks stay in step", "statement": "Whatever the phases of the PLL's outputs, and whenever it locks and the clock domains leave reset, the clocks of a capture block keep the ratio it needs: two pix2x clocks per pixel clock on Spartan-6, and on 7-series five pix1p25x clocks per four pixel clocks with a difference the gearbox can bear; so the bits of the pair are delivered without loss, for ever.", "quantifier": "every lock instant, every phase of each output, every bit sequence on the pair, every polarity and line delay", "why_tests_cant": "Phases and lock instants vary from power-up to power-up; a slip may need arbitrarily long to show.", "anchors": ["litevideo/input/clocking.py:S6Clocking", "litevideo/input/clocking.py:S7Clocking", "litevideo/input/datacapture.py:S6DataCapture", "litevideo/input/datacapture.py:S7DataCapture"]}
{"id": "C119", "title": "Clocks have the rates the interfaces need", "statement": "For every rate of the source, the receiver's pixel clock has that rate and its fast clocks take exactly ten bits per pixel; a transmitter's fast clocks send exactly ten bits per pixel whatever pixel rate software has programmed, and a Spartan-6 transmitter does not exceed max_pix_clk as long as software keeps to the announced ratio.", "quantifier": "every input rate, every multiplier and divider", "why_tests_cant": "Rates are continuous; tests see a few.", "anchors": ["litevideo/input/clocking.py:S6Clocking", "litevideo/input/clocking.py:S7Clocking", "litevideo/output/hdmi/s6.py:S6HDMIOutClocking", "litevideo/output/hdmi/s7.py:S7HDMIOutClocking"]}
{"id": "C120", "title": "Clock generators run in their range", "statement": "At each rate that a 7-series receiver accepts as clkin_freq the oscillators of its MMCM and PLL run within the ranges given in the code, and so does that of a 7-series transmitter at its 100 MHz.", "quantifier": "every accepted input rate", "why_tests_cant": "A generator out of range may still lock on some devices and at some temperatures.", "anchors": ["litevideo/input/clocking.py:S7Clocking", "litevideo/output/hdmi/s7.py:S7HDMIOutClocking"]}
{"id": "C121", "title": "Tap counts read back are real and become current", "statement": "The tap-count registers of a 7-series data capture never show a mixture of two counts: what they show is a count that the delay line had. Once the capture clock has had 374 edges since the last command for a line, and if three of its edges lie between any two commands for that line, its register shows the count that follows from the commands given. The system clock has to have an edge in every 30 edges of the capture clock.", "quantifier": "every history of commands, every interleaving of the two clocks, every outcome of sampling bits while they change", "why_tests_cant": "Mixtures appear only for coincidences of two unrelated clocks.", "anchors": ["litevideo/input/datacapture.py:S7DataCapture"]}
{"id": "C122", "title": "Delay commands reach the delay lines exactly once", "statement": "On a Spartan-6 receiver the delay lines get exactly the calibrate and step commands that software writes to the delay control register, each once, in order and in the direction asked for, if software writes a command for a line only while its busy flag reads 0; when the flag reads 0 nothing is under way. Resets have no busy flag: they arrive once each if three capture clocks lie between them, and can be lost otherwise.", "quantifier": "every sequence of register values, every interleaving of system and capture clocks, every duration of the delay lines' operations", "why_tests_cant": "Losing or doubling a command needs a particular coincidence of clock edges in two unrelated domains.", "anchors": ["litevideo/input/datacapture.py:S6DataCapture"]}
{"id": "C123", "title": "An HDMI receiver set to DVI mode is a DVI receiver", "statement": "HDMIIn built with hdmi=True and with its dvimode register set to 1 receives a DVI transmitter exactly as HDMIIn built with hdmi=False does on the same lanes, one pixel clock later: data-enable and colours from two clocks after the register is set, the syncs from the next line end on, whatever the decoder of data islands was doing before. Video that a DVI transmitter sends therefore reaches memory frame by frame in both capture modes, and the resolution registers show its line width and frame height.", "quantifier": "All bits on the lanes, all earlier values of the register and moments of setting it, all video with standard syncs, lane delays, clock schedules, software and bus behaviour.", "why_tests_cant": "The register can be set at any moment, in any state of the island decoder and anywhere in the picture; both receivers have a lane aligner, a channel aligner and a polarity detector with history.", "anchors": ["litevideo/input/__init__.py:HDMIIn", "litevideo/input/decoding.py:DecodeTERC4", "litevideo/input/analysis.py:SyncPolarity"]}
{"id": "C124", "title": "The raw outputs of a receiver are the words on the lanes", "statement": "Once a receiver has locked, its outputs c0, c1, c2 are the ten-bit words that arrive on the three lanes, aligned to word boundaries and to each other: each word once, in order, with the two words of the other lanes that were sent at the same clock and at a fixed distance from the pixel that it encodes on the colour outputs. This holds in both clock arrangements as long as the clock of these outputs keeps in step with the pixel clock, and with hdmi=True and hdmi=False.", "quantifier": "All words that allow locking, including damaged ones, all lane delays up to 70 bits apart, all phases of the output clock.", "why_tests_cant": "Alignment depends on where in a word each lane starts, on the distance between the lanes and on the phase of two clocks.", "anchors": ["litevideo/input/analysis.py:SyncPolarity", "litevideo/input/chansync.py:ChanSync", "litevideo/input/decoding.py:Decoding", "litevideo/input/__init__.py:HDMIIn"]}
{"id": "C125", "title": "Hot plug", "statement": "The hot-plug register shows the level of its pad two system clocks before, inverted if the pad is marked so, and 1 if there is no pad. As long as software has not switched the hot-plug enable on, EDID leaves SDA alone; from two clocks after it is switched off EDID's SDA output does not change any more, whatever happens on the bus.", "quantifier": "All pad levels, all memories, all behaviour of master and lines.", "why_tests_cant": "A slave that must not answer has to be silent for every waveform.", "anchors": ["litevideo/input/edid.py:EDID"]}
{"id": "C126", "title": "Enough bandwidth", "statement": "The capture path needs nothing but enough memory bandwidth. Take any number of words B up to the words of a frame, such that the FIFO has room for more than 2B + 1 words. If there are at least W system clocks while B words of pixels arrive, if the memory refuses a word at no more than R of any W consecutive system clocks, if the write data in transit is gone at most d system clocks after the last word handed over, and if R + B + d + 2 <= W, then no captured word is ever lost, software never reads an overflow, and every slot software loads is filled with the pixels of one frame. This includes the latency of the asynchronous FIFO's synchronisers and what they resolve to, and the pauses of the DMA between frames.", "quantifier": "All videos, pixel and system clocks, memory ready patterns, synchroniser outcomes, software, frame sizes, FIFO depths, word widths.", "why_tests_cant": "A lost word needs the worst alignment of clocks, stalls, frame ends and synchroniser delays; a test sees one alignment.", "anchors": ["litevideo/input/dma.py:DMA", "litevideo/input/analysis.py:FrameExtraction"]}
{"id": "C127", "title": "From the wire to memory", "statement": "An HDMI input with memory port, taken as a whole from the bits on its three lanes to the words in memory: a film sent in any ordinary mode, arriving with any lane delays that differ by at most seven pixels and with isolated bit errors in pixels, reaches memory picture by picture and in order, each picture differing from the one sent only in colours whose own bits were hit. No word is lost and software never reads an overflow; and a slot that software has loaded gets a picture. Beyond what software does, the only thing required of the rest of the system is that the clocks run and that the memory has the bandwidth of C126: the asynchronous FIFO is the real circuit with its synchronisers.", "quantifier": "All films, modes, lane delays, error patterns, clocks, memory ready patterns, synchroniser outcomes, software that writes only to slots it owns, frame sizes, FIFO depths, both capture modes.", "why_tests_cant": "It composes word alignment, channel alignment, decoding, frame extraction, clock crossing and DMA over unbounded time with arbitrary clocks and errors; a simulation covers one film, one alignment and one schedule.", "anchors": ["litevideo/input/__init__.py:HDMIIn", "litevideo/input/analysis.py:FrameExtraction", "litevideo/input/dma.py:DMA", "litevideo/input/charsync.py:CharSync", "litevideo/input/chansync.py:ChanSync", "litevideo/input/decoding.py:Decoding"]}
{"id": "C128", "title": "From frame buffer to memory", "statement": "The library's display output and its HDMI input, cabled together over any supported transmitter and receiver, form a lossless picture link that asks nothing of its environment beyond memory bandwidth on both sides. If the display memory answers within L clocks and refuses at most r commands per line time, the receiving memory has the bandwidth of C126, the lanes differ by at most seven pixels in delay, and software leaves slots alone while the hardware owns them, then once a few frames have passed every slot reported as done holds exactly the displayed frame buffer, no capture word is ever lost, software never reads an overflow, and every loaded slot is eventually done. The receiving FIFO is the circuit with its clock-domain synchronisers.", "quantifier": "All frame buffer contents, ordinary modes, memory timings within the stated rates, clock relations, lane delays and polarities, synchroniser outcomes, software schedules, FIFO depths, both capture modes.", "why_tests_cant": "It is a statement about every pixel of every frame for ever, over two clock domains, two memories and software; any simulation is one run.", "anchors": ["litevideo/output/core.py:VideoOutCore", "litevideo/output/hdmi/encoder.py:Encoder", "litevideo/input/__init__.py:HDMIIn", "litevideo/input/dma.py:DMA", "litevideo/input/analysis.py:FrameExtraction"]}
{"id": "C129", "title": "The word error rate software reads is about the link", "statement": "On a lane whose wrong bits are isolated (at least 90 bits apart, in pixels or in blanking), the alignment is kept, and the number software reads from the word error register for a whole period after lock never exceeds the number of damaged words of that period, and is at least the number of words damaged in blanking in one of their low nine bits. Without errors it is zero. (A wrong bit in a pixel may or may not be counted.)", "quantifier": "every video whose blanking lasts at least four clocks, every such set of wrong bits, every lane delay and receiver state, every period, every schedule of the two clocks with three system clock edges per period, every instant at which software asks", "why_tests_cant": "The count depends on all words of a period of 2^24 clocks, on the relation of two clocks and on which words of a picture happen to look wrong; tests see a few bits.", "anchors": ["litevideo/input/wer.py:WER", "litevideo/input/charsync.py:CharSync", "litevideo/output/hdmi/encoder.py:Encoder"]}
{"id": "C130", "title": "The input recovers when its clock comes back", "statement": "After the clock of the link has been lost and the pixel clock domain has been reset, whatever was going on before, capture works again as from power-up: if software has no slot loaded while the reset ends and until the FIFO has drained in some interval without captured words, such as a vertical blanking (2^(n+1)+2 system clocks and two pixel clocks), then with enough memory bandwidth the FIFO refuses no word from that interval on, each transfer that is done once a few frames have been received brings one picture of the film to memory exactly and in order (but for colours hit by bit errors), and a slot that is LOADED gets its picture.", "quantifier": "every history before the end of the reset, every content of the FIFO, every film in every real mode with isolated bit errors, every delay and skew of the lanes, every schedule of pixel clock, system clock and memory that is fast enough, every behaviour of the synchronisers, both colour modes", "why_tests_cant": "The clock may be lost at any point of a transfer, with any relation of the counters of the FIFO; tests unplug a cable at a few instants.", "anchors": ["litevideo/input/__init__.py:HDMIIn", "litevideo/input/clocking.py:S7Clocking", "litevideo/input/analysis.py:FrameExtraction", "litevideo/input/dma.py:DMA"]}
{"id": "C131", "title": "Changing the pixel clock of the output", "statement": "When software changes the pixel clock of the output, the pixel clock domain is reset. An output that is disabled and has stopped stays off; and however the reset comes, once it is over the output can be used as before: after the registers hold a mode with the output enabled, at most four frames are shown with other parameters, and then the output is the raster of that mode for ever.", "quantifier": "every state of the output before the reset, every relation of the counters of the parameter FIFO, every relation of the clocks and every behaviour of the synchronisers, every history of register writes, every mode, every memory and driver timing", "why_tests_cant": "Whether old parameter sets reappear depends on how many sets have passed the FIFO since power-up, modulo its counters, and on the instant of the reset; a test changes the clock at a few instants.", "anchors": ["litevideo/output/hdmi/s7.py:S7HDMIOutClocking", "litevideo/output/core.py:Initiator", "litevideo/output/core.py:VideoOutCore"]}
{"id": "C132", "title": "The underflow count tells software whether the output starved", "statement": "Software switches the underflow counter on after it was off, asks for the count, and reads it three clocks of the DRAM port later or more, without another request in between or shortly before. It reads exactly the number, modulo 2^32, of clocks of the port at which the output had no pixel, from the second system clock after switching on until two or three clocks of the port after the request. So a count of 0 means that the output handed over a pixel at every clock in that time, and an output that never lacks a pixel gives 0. Of two requests that are closer than one clock of the port neither is answered.", "quantifier": "every interleaving of the system clock and the clock of the port, every value caught when both clocks have an edge at once (bit by bit), every history of requests and of the enable before, every behaviour of the output", "why_tests_cant": "The enable is handed to the other clock without a synchroniser of that clock, and the request passes a toggle synchroniser; the outcome depends on the relation of two unrelated clocks, which a simulation fixes.", "anchors": ["litevideo/output/core.py:VideoOutCore"]}
{"id": "C133", "title": "An HDMI receiver locks onto an HDMI source", "statement": "A receiver built for HDMI and not switched to DVI mode finds the words of an HDMI source that sends video periods and data islands with their guard bands and preambles. After ten control words and one complete period of at least 15 words it tells for ever after, word by word, whether a pixel, a data island or its guard bands are being received, and puts out the nibbles of the three channels of a data island, one clock before the flag of their word. The data-enable at the output is exact if no line begins with a pixel that looks like the guard band (C22); the colours at the output are those of the word after the one data-enable is about (C76).", "quantifier": "every sequence of periods an HDMI source may send, all words in them, all bit delays of the three lanes with at most 70 bits between them, all bits before, and all initial values of the registers", "why_tests_cant": "The word boundary, the lane offsets and the period decoder are found one after the other while the stream goes on; tests run one delay and one packet and do not feed the decoder from lanes that are still synchronising.", "anchors": ["litevideo/input/__init__.py:HDMIIn", "litevideo/input/charsync.py:CharSync", "litevideo/input/chansync.py:ChanSync", "litevideo/input/decoding.py:Decoding"]}
{"id": "C134", "title": "The syncs in HDMI mode are those that the source sends", "statement": "Once an HDMI receiver that is not in DVI mode is locked, its sync outputs follow, outside video periods, the sync levels that the source sends with every word: in control words, and in the nibbles of channel 0 during data islands.", "quantifier": "every sequence of periods an HDMI source may send, all sync levels in them, all bit delays of the three lanes with at most 70 bits between them, and all initial values of the registers", "why_tests_cant": "Whether a sync edge falls into a data island depends on the source and on the packets it sends; the available tests send no data islands.", "anchors": ["litevideo/input/__init__.py:HDMIIn", "litevideo/input/analysis.py:SyncPolarity", "litevideo/input/decoding.py:Decoding", "litevideo/input/decoding.py:DecodeTERC4"]}
{"id": "C135", "title": "The frames of an HDMI source reach memory", "statement": "When an HDMI receiver that is not in DVI mode is connected to a conforming HDMI source, and software owns a slot when a frame starts, then at the end of the transfer the slot's memory holds the first words of a frame, pixel for pixel as the source sent it, in rgb and in ycbcr422 mode.", "quantifier": "every conforming sequence of periods and words, all bit delays of the three lanes with at most 70 bits between them, all interleavings of pixel clock, system clock, FIFO and memory bus, all slot addresses and frame sizes", "why_tests_cant": "The claim spans serial lanes, alignment, period detection, colour conversion, the FIFO between two clocks and the DMA; no test runs them together, and with data islands and all the interleavings there is no finite set of cases.", "anchors": ["litevideo/input/__init__.py:HDMIIn", "litevideo/input/decoding.py:Decoding", "litevideo/input/decoding.py:DecodeTERC4", "litevideo/input/analysis.py:FrameExtraction", "litevideo/input/dma.py:DMA"]}
{"id": "C136", "title": "The resolution of an HDMI source is measured", "statement": "When an HDMI receiver that is not in DVI mode is connected to a conforming HDMI source, the horizontal resolution register shows, a fixed latency after each line, the number of pixels of that line, and the vertical one, after each start of a frame, the number of lines since the start before, modulo 2048. Frames start where the vertical sync of the control words becomes active.", "quantifier": "every conforming sequence of periods and words, including data islands, all line lengths and line counts, all bit delays of the three lanes with at most 70 bits between them, and all initial values of the registers", "why_tests_cant": "Line and frame lengths are unbounded and arbitrary; whether guard bands and data islands are counted as pixels depends on the whole sequence of periods.", "anchors": ["litevideo/input/__init__.py:HDMIIn", "litevideo/input/analysis.py:ResolutionDetection", "litevideo/input/analysis.py:SyncPolarity", "litevideo/input/decoding.py:DecodeTERC4"]}
{"id": "C137", "title": "A loaded slot receives a frame of an HDMI source", "statement": "When an HDMI receiver that is not in DVI mode is connected to a conforming HDMI source whose frames keep coming, a slot that is LOADED while the capture path is at rest is done at some time, provided that clocks and memory bus stay alive, no other slot is loaded and no overflow occurs; it then holds the first words of one frame, as many as the frame size says (the colours in them are the subject of C135).", "quantifier": "every conforming sequence of periods and words, all bit delays of the three lanes with at most 70 bits between them, all interleavings of pixel clock, system clock, FIFO and memory bus without a bound on delays, rgb and ycbcr422 mode", "why_tests_cant": "Liveness over unbounded delays of clocks and bus, and over every source; no test waits for every schedule.", "anchors": ["litevideo/input/__init__.py:HDMIIn", "litevideo/input/analysis.py:FrameExtraction", "litevideo/input/dma.py:DMA"]}
