{
 "claims": [
  {
   "property": "C01",
   "status": "proved",
   "theorems": [
    "Verif.Fifo.fifo_order",
    "Verif.Fifo.fifo_complete"
   ],
   "note": "every DEPTH>=1, every protocol-respecting history, arbitrary power-up memory"
  },
  {
   "property": "C02",
   "status": "proved",
   "theorems": [
    "Verif.Fifo.fifo_flags"
   ],
   "note": ""
  },
  {
   "property": "C03",
   "status": "proved",
   "theorems": [
    "Verif.Fifo.fifo_size_space"
   ],
   "note": "register wrap-around is modelled"
  },
  {
   "property": "C04",
   "status": "partial",
   "theorems": [
    "Verif.Fifo.fifo_init_partial",
    "Verif.Fifo.fifo_init_full_broken"
   ],
   "note": "proved for len(INIT_DATA) < DEPTH; for len = DEPTH (DEPTH>=2) the code violates the property, counterexample proved"
  },
  {
   "property": "C05",
   "status": "proved",
   "theorems": [
    "Verif.HsFifo.hsFifo_queue"
   ],
   "note": ""
  },
  {
   "property": "C06",
   "status": "proved",
   "theorems": [
    "Verif.HsFifo.hsFifo_stable"
   ],
   "note": ""
  },
  {
   "property": "C07",
   "status": "proved",
   "theorems": [
    "Verif.HsFifo.hsFifo_ready",
    "Verif.HsFifo.hsFifo_offers",
    "Verif.HsFifo.hsFifo_drain"
   ],
   "note": ""
  },
  {
   "property": "C08",
   "status": "proved",
   "theorems": [
    "Verif.HsFifo.hsFifo_size_space"
   ],
   "note": ""
  },
  {
   "property": "C09",
   "status": "proved",
   "theorems": [
    "Verif.HsReg.hsReg_queue",
    "Verif.HsReg.hsReg_stable",
    "Verif.HsReg.hsReg_latency"
   ],
   "note": "every LATENCY n"
  },
  {
   "property": "C10",
   "status": "proved",
   "theorems": [
    "Verif.HsReg.hsRegBreak_no_comb",
    "Verif.HsReg.hsRegBreak_queue",
    "Verif.HsReg.hsRegBreak_stable",
    "Verif.HsReg.hsRegBreak_throughput"
   ],
   "note": "including an optional INIT_DATA item"
  },
  {
   "property": "C100",
   "status": "partial",
   "theorems": [
    "Verif.AxiToLite.Split.axiToLite_incr_partial",
    "Verif.AxiToLite.Split.axiToLite_fixed_wrong",
    "Verif.AxiToLite.Split.axiToLite_wrap_narrow_wrong"
   ],
   "note": "burst type and size are ignored: FIXED, WRAP, narrow and unaligned bursts go to wrong addresses; correct for aligned INCR bursts of full words and single beats"
  },
  {
   "property": "C101",
   "status": "proved",
   "theorems": [
    "Verif.AxiToLite.Group.axiToLite_group"
   ],
   "note": ""
  },
  {
   "property": "C102",
   "status": "partial",
   "theorems": [
    "Verif.SlaveTimeout.slaveTimeout_error_partial",
    "Verif.SlaveTimeout.slaveTimeout_spurious"
   ],
   "note": "an answer of the slave does not stop the timer, each answered request gets a second response SLVERR later; an error response is given only exactly TIMEOUT cycles after a request with this id"
  },
  {
   "property": "C103",
   "status": "partial",
   "theorems": [
    "Verif.SlaveTimeout.slaveTimeout_silent_partial",
    "Verif.SlaveTimeout.slaveTimeout_lost"
   ],
   "note": "the error response is offered for one cycle only and is lost if the master is not ready in it; it is offered exactly TIMEOUT cycles after the request"
  },
  {
   "property": "C104",
   "status": "partial",
   "theorems": [
    "Verif.SlaveTimeout.slaveTimeout_width_partial",
    "Verif.SlaveTimeout.slaveTimeout_width_wrong"
   ],
   "note": "the width is computed from TIMEOUT - 1 instead of TIMEOUT, it is too small exactly for TIMEOUT = 2^k + 1"
  },
  {
   "property": "C105",
   "status": "proved",
   "theorems": [
    "Verif.Mdio.mdio_packet",
    "Verif.Mdio.mdio_frame"
   ],
   "note": ""
  },
  {
   "property": "C106",
   "status": "proved",
   "theorems": [
    "Verif.Mdio.mdio_read"
   ],
   "note": ""
  },
  {
   "property": "C107",
   "status": "proved",
   "theorems": [
    "Verif.Mdio.mdio_one_result"
   ],
   "note": ""
  },
  {
   "property": "C108",
   "status": "partial",
   "theorems": [
    "Verif.Mdio.mdio_preamble_short",
    "Verif.Mdio.mdio_preamble_partial"
   ],
   "note": "Violated: a request accepted while MDC is high, e.g. one which waits at the end of a write, is sent with 31 bits of preamble. Proved: the preamble has 32 bits if MDC is low when the packet starts and 31 otherwise."
  },
  {
   "property": "C109",
   "status": "partial",
   "theorems": [
    "Verif.Mdio.mdio_no_hold",
    "Verif.Mdio.mdio_hold_partial"
   ],
   "note": "Violated: the FSM goes to idle with the last rising edge of MDC, so the last bit of a write is released by the clock edge which raises MDC. Proved: every other bit is stable over the edge."
  },
  {
   "property": "C11",
   "status": "proved",
   "theorems": [
    "Verif.HsReg.hsRegDelay_queue",
    "Verif.HsReg.hsRegDelay_stable"
   ],
   "note": "for every INIT_DATA accepted by elaboration (length 0 or 2; length 1 raises UnboundLocalError)"
  },
  {
   "property": "C110",
   "status": "partial",
   "theorems": [
    "Verif.Spi.spi_comb_loop",
    "Verif.Spi.spi_settles_partial"
   ],
   "note": "violated: for SPI_FREQ_PESCALER=10 the tick of the initial wait is masked by the reset which it causes, there is no stable state; holds if half the prescaler is a power of 2 and SS_WAIT_CLK_TICKS is 1, 2 or 4"
  },
  {
   "property": "C111",
   "status": "proved",
   "theorems": [
    "Verif.Spi.spi_transfer",
    "Verif.Spi.spi_latency",
    "Verif.Spi.spi_clk_next"
   ],
   "note": "for half prescaler a power of two and SS_WAIT_CLK_TICKS in {1,2,4} (the parameters for which the timers settle, see C110), SPI_DATA_WIDTH=1"
  },
  {
   "property": "C112",
   "status": "partial",
   "theorems": [
    "Verif.Spi.spi_no_deselect",
    "Verif.Spi.spi_select_wait_partial"
   ],
   "note": "violated: chip select only follows vld, so it stays asserted between back to back words; the wait before the first clock edge after last does hold"
  },
  {
   "property": "C113",
   "status": "proved",
   "theorems": [
    "Verif.I2c.i2c_wave",
    "Verif.I2c.i2c_latency"
   ],
   "note": "the user keeps a command until rd, starts with START and the arbitration is not lost"
  },
  {
   "property": "C114",
   "status": "partial",
   "theorems": [
    "Verif.I2c.i2c_no_arbitration",
    "Verif.I2c.i2c_low_no_loss",
    "Verif.I2c.i2c_abort_partial"
   ],
   "note": "violated: sda_chk is never set to 1, with SDA held low the loss is never reported; the abort after a report holds"
  },
  {
   "property": "C115",
   "status": "partial",
   "theorems": [
    "Verif.I2c.i2c_no_rate",
    "Verif.I2c.i2c_fixed_rate_partial"
   ],
   "note": "violated: the state machine is not gated by stateClkEn, the wires do not depend on clk_cnt_initVal nor on clock stretching"
  },
  {
   "property": "C116",
   "status": "partial",
   "theorems": [
    "Verif.I2c.i2c_no_read",
    "Verif.I2c.i2c_dout_partial"
   ],
   "note": "violated: dout is a pulse at the rise of SCL and does not depend on SDA"
  },
  {
   "property": "C117",
   "status": "partial",
   "theorems": [
    "Verif.RamTrans.ramtrans_beats_lost",
    "Verif.RamTrans.ramtrans_beats_witness",
    "Verif.RamTrans.ramtrans_writes_partial"
   ],
   "note": "Violated: the address of a flush write waits until the old item can be read, but w.data.ready and the write enable of the RAM ignore w_addr_en, so beats are consumed and written to word 0 while the write is not accepted. Proved for runs without flush: ITEM_WORDS beats per write and exact memory contents."
  },
  {
   "property": "C118",
   "status": "partial",
   "theorems": [
    "Verif.RamTrans.ramtrans_flush_wrong",
    "Verif.RamTrans.ramtrans_flush_witness",
    "Verif.RamTrans.ramtrans_flush_partial",
    "Verif.RamTrans.ramtrans_idle_init",
    "Verif.RamTrans.ramtrans_idle_again"
   ],
   "note": "Violated: the flush read is dispatched without waiting for w.data, if the data come later the item is flushed twice and its second word appears on r.data. Proved for gap free writes into an idle memory with a ready flush port and no read; it is shown when the memory is idle."
  },
  {
   "property": "C119",
   "status": "partial",
   "theorems": [
    "Verif.RamTrans.ramtrans_torn_read",
    "Verif.RamTrans.ramtrans_reads_partial",
    "Verif.RamTrans.ramtrans_reads_complete"
   ],
   "note": "Violated: a read between two beats of a write of the same item (or a write which overtakes a stalled read) gives a mix of old and new words. Proved without flush: order, id, last, each word is current at some time between request and delivery, everything is delivered N+1 cycles after the last request if the consumer is ready."
  },
  {
   "property": "C12",
   "status": "partial",
   "theorems": [
    "Verif.HsReg.hsReg_init_partial",
    "Verif.HsReg.hsReg_init_broken",
    "Verif.HsReg.hsReg_init_junk"
   ],
   "note": "proved for m=0 and m=n; for 0<m<n the code delivers undefined words (proved for all such n,m)"
  },
  {
   "property": "C120",
   "status": "partial",
   "theorems": [
    "Verif.Datapump.datapump_addr_partial",
    "Verif.Datapump.datapump_addr_sound_partial",
    "Verif.Datapump.datapump_addr_short",
    "Verif.Datapump.datapump_addr_wrap",
    "Verif.Datapump.datapump_addr_chunk",
    "Verif.Datapump.datapump_addr_byte"
   ],
   "note": "Violated: a request over the end of a word with MAX_LEN=0 reads one word; len+1 wraps to 0 for a full length request at an offset if CHUNK_WIDTH<=ALIGNAS<DATA_WIDTH and MAX_LEN+1 is the AXI limit; a legal request is swallowed if CHUNK_WIDTH>ALIGNAS>8; DATA_WIDTH=8 clears address bit 0. Proved for all parameters without these cases (Sound), all request sequences and timings."
  },
  {
   "property": "C121",
   "status": "proved",
   "theorems": [
    "Verif.Datapump.datapump_read"
   ],
   "note": "ALIGNAS=DATA_WIDTH."
  },
  {
   "property": "C122",
   "status": "partial",
   "theorems": [
    "Verif.Datapump.datapump_error_harms",
    "Verif.Datapump.datapump_error_lost",
    "Verif.Datapump.datapump_errorRead_partial",
    "Verif.Datapump.datapump_error_stops"
   ],
   "note": "Violated: after an error the words of the slave are consumed and not given to the driver, all requests are blocked for ever. Proved: errorRead is set exactly after an error response and stays; after an error nothing is requested and nothing is output."
  },
  {
   "property": "C123",
   "status": "proved",
   "theorems": [
    "Verif.Datapump.datapump_write",
    "Verif.Datapump.datapump_write_acks"
   ],
   "note": "ALIGNAS=DATA_WIDTH, no error responses."
  },
  {
   "property": "C124",
   "status": "partial",
   "theorems": [
    "Verif.Datapump.datapump_write_align",
    "Verif.Datapump.datapump_write_align_partial",
    "Verif.Datapump.datapump_read_align"
   ],
   "note": "Violated: the write datapump checks alignment to DATA_WIDTH, a request aligned to ALIGNAS raises the error and blocks the unit. Proved: the read datapump raises the error exactly for addresses not aligned to ALIGNAS; the write datapump is right for ALIGNAS=8 and ALIGNAS=DATA_WIDTH."
  },
  {
   "property": "C125",
   "status": "partial",
   "theorems": [
    "Verif.Datapump.datapump_cross",
    "Verif.Datapump.datapump_cross_partial"
   ],
   "note": "Violated: requests are not split at page boundaries. Proved: if the words of each request are in one page, each burst is."
  },
  {
   "property": "C126",
   "status": "partial",
   "theorems": [
    "Verif.Datapump.datapump_read_len",
    "Verif.Datapump.datapump_write_len",
    "Verif.Datapump.datapump_write_len_partial"
   ],
   "note": "Violated for the write datapump: MAX_LEN is always 511. Proved for the read datapump and for the write datapump with at most 512 words."
  },
  {
   "property": "C127",
   "status": "proved",
   "theorems": [
    "Verif.AxiMatrix.matrix_requests_read",
    "Verif.AxiMatrix.matrix_requests_write"
   ],
   "note": "The address ranges are disjoint and fit to ADDR_WIDTH."
  },
  {
   "property": "C128",
   "status": "proved",
   "theorems": [
    "Verif.AxiMatrix.matrix_read_data"
   ],
   "note": "Slaves answer in order without interleaving, which the component requires."
  },
  {
   "property": "C129",
   "status": "proved",
   "theorems": [
    "Verif.AxiMatrix.matrix_read_progress",
    "Verif.AxiMatrix.matrix_write_progress"
   ],
   "note": "One step progress in every reachable state; with finite data it excludes a deadlock."
  },
  {
   "property": "C13",
   "status": "proved",
   "theorems": [
    "Verif.StreamNode.streamNode_atomic"
   ],
   "note": ""
  },
  {
   "property": "C130",
   "status": "proved",
   "theorems": [
    "Verif.AxiMatrix.matrix_write_data",
    "Verif.AxiMatrix.matrix_write_resp"
   ],
   "note": ""
  },
  {
   "property": "C131",
   "status": "partial",
   "theorems": [
    "Verif.AxiMatrix.matrix_unmapped_hangs",
    "Verif.AxiMatrix.matrix_unmapped_never",
    "Verif.AxiMatrix.matrix_accept_partial"
   ],
   "note": "A request with an address outside of all ranges is never accepted, the master hangs and all its later requests too; a mapped request is accepted within as many cycles as there are masters."
  },
  {
   "property": "C132",
   "status": "partial",
   "theorems": [
    "Verif.AxiMatrix.matrix_slave_req_undefined",
    "Verif.AxiMatrix.matrix_slave_req_moves",
    "Verif.AxiMatrix.matrix_slave_req_partial"
   ],
   "note": "The payload multiplexer is enabled by ready of the slave, the payload is not defined while the slave stalls and it changes with the arbiter. Proved: valid is not withdrawn, the payload is that of one requesting master in the cycle of the transfer."
  },
  {
   "property": "C133",
   "status": "partial",
   "theorems": [
    "Verif.AxiMatrix.matrix_width_short",
    "Verif.AxiMatrix.matrix_width_partial"
   ],
   "note": "ADDR_WIDTH is log2ceil(size - 1): for the size 2^k + 1 the last byte has no address. Proved for all other sizes."
  },
  {
   "property": "C134",
   "status": "partial",
   "theorems": [
    "Verif.ReorderBuffer.reorder_overwrites",
    "Verif.ReorderBuffer.reorder_overwrites_run",
    "Verif.ReorderBuffer.reorder_partial"
   ],
   "note": "Violated: the extra condition of the input register blocks only its ready and not the write to the RAM, a waiting word overwrites the word which is still in its place. Proved for sources which send a word only after the word with the same id before it was delivered."
  },
  {
   "property": "C135",
   "status": "proved",
   "theorems": [
    "Verif.ReorderBuffer.reorder_progress"
   ],
   "note": "For sources which keep the window of 2^ID_WIDTH words."
  },
  {
   "property": "C136",
   "status": "proved",
   "theorems": [
    "Verif.StrictOrder.strict_requests_read",
    "Verif.StrictOrder.strict_requests_write"
   ],
   "note": "order fifo abstracted to a list with arbitrary stalls (HandshakedFifo is C05-C07)"
  },
  {
   "property": "C137",
   "status": "proved",
   "theorems": [
    "Verif.StrictOrder.strict_read_data"
   ],
   "note": "assumes the datapump answers in order with one burst per request (C125 and following)"
  },
  {
   "property": "C138",
   "status": "proved",
   "theorems": [
    "Verif.StrictOrder.strict_write_data"
   ],
   "note": "assumes each driver sends one burst per request"
  },
  {
   "property": "C139",
   "status": "partial",
   "theorems": [
    "Verif.SplitJoin.joinFair_unstable",
    "Verif.SplitJoin.joinFair_stable_partial"
   ],
   "note": "VIOLATED by the code: the priority register rotates also during a stall, with two valid inputs the data of the stalled dataOut change. Partial: vld is always kept; the data are kept while only one input is valid"
  },
  {
   "property": "C14",
   "status": "partial",
   "theorems": [
    "Verif.StreamNode.streamNode_extra_partial",
    "Verif.StreamNode.streamNode_extra_broken"
   ],
   "note": "the documented behaviour is violated (counterexample); what holds is proved"
  },
  {
   "property": "C140",
   "status": "partial",
   "theorems": [
    "Verif.ArrayItemGetter.getter_bytes_wrong",
    "Verif.ArrayItemGetter.getter_items_partial"
   ],
   "note": "for ITEM_WIDTH=8 log2ceil(1)=1 doubles the address step, other words are read; holds for items of 2, 4, 8, ... bytes"
  },
  {
   "property": "C141",
   "status": "partial",
   "theorems": [
    "Verif.LinkedListReader.reader_items_fails",
    "Verif.LinkedListReader.reader_items_partial"
   ],
   "note": "for PTR_WIDTH < log2ceil(ITEMS_IN_BLOCK+1) fitTo cuts inBlockRemain and the node pointer is given out as an item; holds otherwise"
  },
  {
   "property": "C142",
   "status": "partial",
   "theorems": [
    "Verif.LinkedListReader.reader_bound_fails",
    "Verif.LinkedListReader.reader_bound_partial"
   ],
   "note": "for PTR_WIDTH < log2ceil(ITEMS_IN_BLOCK+1) four words are requested while one is available; holds otherwise"
  },
  {
   "property": "C143",
   "status": "proved",
   "theorems": [
    "Verif.LinkedListReader.reader_progress"
   ],
   "note": ""
  },
  {
   "property": "C144",
   "status": "partial",
   "theorems": [
    "Verif.LinkedListWriter.writer_nodes_fails",
    "Verif.LinkedListWriter.writer_places_partial"
   ],
   "note": "the increment of baseIndex has priority over the load of nextBaseIndex, so the next node is never entered, and the last burst of a node is one word too long and overwrites the node pointer; items go to consecutive words, which is right for the first node only"
  },
  {
   "property": "C145",
   "status": "partial",
   "theorems": [
    "Verif.LinkedListWriter.writer_bursts_fails",
    "Verif.LinkedListWriter.writer_bursts_partial"
   ],
   "note": "the state machine leaves the send state when the counter is 0 without looking at the handshake of the final word; holds if the final word is not stalled"
  },
  {
   "property": "C146",
   "status": "proved",
   "theorems": [
    "Verif.LinkedListWriter.writer_space",
    "Verif.LinkedListWriter.writer_ptr"
   ],
   "note": ""
  },
  {
   "property": "C147",
   "status": "proved",
   "theorems": [
    "Verif.LinkedListWriter.writer_order"
   ],
   "note": ""
  },
  {
   "property": "C148",
   "status": "partial",
   "theorems": [
    "Verif.LinkedListWriter.writer_flush_fails",
    "Verif.LinkedListWriter.writer_timeout_partial"
   ],
   "note": "the length of the request does not depend on the number of buffered items, the started burst waits for items which do not come; the request is made in time"
  },
  {
   "property": "C149",
   "status": "partial",
   "theorems": [
    "Verif.ArrayBuffWriter.arrayWriter_narrow_fails",
    "Verif.ArrayBuffWriter.arrayWriter_bytes_fails",
    "Verif.ArrayBuffWriter.arrayWriter_places_partial"
   ],
   "note": "if BUFF_DEPTH does not fit in the width of remaining (ITEMS < BUFF_DEPTH) bursts leave the array; for DATA_WIDTH=8 log2ceil(0)=1 doubles the address step; holds for the other parameters"
  },
  {
   "property": "C15",
   "status": "proved",
   "theorems": [
    "Verif.SplitJoin.splitCopy_all"
   ],
   "note": ""
  },
  {
   "property": "C150",
   "status": "partial",
   "theorems": [
    "Verif.ArrayBuffWriter.arrayWriter_len_fails",
    "Verif.ArrayBuffWriter.arrayWriter_bursts_partial"
   ],
   "note": "the assertion on the widths allows BUFF_DEPTH from 2^k+1 to 2^(k+1)-2 with len of k bits, len is cut (6 words sent for a request of 2); holds for BUFF_DEPTH <= 2^lenWidth"
  },
  {
   "property": "C151",
   "status": "partial",
   "theorems": [
    "Verif.ArrayBuffWriter.arrayWriter_timeout_fails",
    "Verif.ArrayBuffWriter.arrayWriter_words_partial"
   ],
   "note": "with TIMEOUT=1 the timeout counter is 0 from the reset and a request is made with the empty buffer; holds for TIMEOUT >= 2"
  },
  {
   "property": "C152",
   "status": "partial",
   "theorems": [
    "Verif.ArrayBuffWriter.arrayWriter_unstable",
    "Verif.ArrayBuffWriter.arrayWriter_stable_partial"
   ],
   "note": "items which come during the stall change req.len of a request made by the timeout; stable if no item comes"
  },
  {
   "property": "C153",
   "status": "proved",
   "theorems": [
    "Verif.Mmu.mmu_translates"
   ],
   "note": "converter, fifos and item getter as queues (C05-C08, C26, C140); level 1 table constant"
  },
  {
   "property": "C154",
   "status": "partial",
   "theorems": [
    "Verif.Mmu.mmu_bad_read",
    "Verif.Mmu.mmu_reads_partial"
   ],
   "note": "fails: the request for an invalid level 1 item is sent in the cycle in which the item appears because segfaultFlag is a register; proved: reads are for the accepted addresses in order and only the last of them may be for an invalid level 1 item"
  },
  {
   "property": "C155",
   "status": "proved",
   "theorems": [
    "Verif.Mmu.mmu_segfault_sound",
    "Verif.Mmu.mmu_drains"
   ],
   "note": "same model as C153"
  },
  {
   "property": "C156",
   "status": "proved",
   "theorems": [
    "Verif.FramePack.pack_data"
   ],
   "note": ""
  },
  {
   "property": "C157",
   "status": "proved",
   "theorems": [
    "Verif.FramePack.pack_size",
    "Verif.FramePack.pack_exact"
   ],
   "note": "configurations in which MAX_FRAME_WORDS - 1 fits in its counter (log2ceil(MAX_FRAME_WORDS - 1) bits in the mode with a timeout)"
  },
  {
   "property": "C158",
   "status": "partial",
   "theorems": [
    "Verif.FramePack.pack_timeout_fails",
    "Verif.FramePack.pack_timeout_partial"
   ],
   "note": "fails: with both limits the counter of the timeout does not run for the word which fills the frame to MAX_FRAME_WORDS, it waits for the next input for ever; proved for other words"
  },
  {
   "property": "C159",
   "status": "partial",
   "theorems": [
    "Verif.FramePack.pack_early_fails",
    "Verif.FramePack.pack_early_partial"
   ],
   "note": "fails: the counter of the timeout is not reset by an input, short gaps in a frame add up; proved: at least IN_TIMEOUT - 1 cycles without an input since the end of the previous frame"
  },
  {
   "property": "C16",
   "status": "proved",
   "theorems": [
    "Verif.SplitJoin.joinPrioritized_lowest"
   ],
   "note": ""
  },
  {
   "property": "C160",
   "status": "partial",
   "theorems": [
    "Verif.SlrCrossing.slr_duplicates",
    "Verif.SlrCrossing.slr_transfers_partial",
    "Verif.SlrCrossing.slr_drains_partial"
   ],
   "note": "fails: a word offered in the first cycle after the reset is delivered twice (reg.rd is reset to 0 but cross_ce_inreg to 1); proved if nothing is offered in that cycle"
  },
  {
   "property": "C161",
   "status": "proved",
   "theorems": [
    "Verif.SlrCrossing.slr_stable"
   ],
   "note": ""
  },
  {
   "property": "C162",
   "status": "partial",
   "theorems": [
    "Verif.Booth.booth_min_fails",
    "Verif.Booth.booth_multiplies_partial"
   ],
   "note": "fails if dataIn.a is the least number -2^(DATA_WIDTH-1), which the documentation allows: a - m overflows DATA_WIDTH bits, e.g. (-8)*1 = 8; proved for all other operands and all widths"
  },
  {
   "property": "C163",
   "status": "proved",
   "theorems": [
    "Verif.Booth.booth_latency"
   ],
   "note": ""
  },
  {
   "property": "C164",
   "status": "partial",
   "theorems": [
    "Verif.CumMask.mask_read_fails",
    "Verif.CumMask.mask_read_partial",
    "Verif.CumMask.mask_read_accepted_partial"
   ],
   "note": "fails: in the second cycle of an accumulating write the first read port is ready, but the memory is read at the address of the write; proved for every read accepted outside of the cycle in which an accumulating write is accepted (mask_read_accepted_partial), and that the ports are ready without an accumulating write"
  },
  {
   "property": "C165",
   "status": "proved",
   "theorems": [
    "Verif.CumMask.mask_write",
    "Verif.CumMask.mask_accepted"
   ],
   "note": "observed by a read port other than the first"
  },
  {
   "property": "C166",
   "status": "partial",
   "theorems": [
    "Verif.LocalLink.localLink_round_fails",
    "Verif.LocalLink.localLink_round_partial"
   ],
   "note": "fails if the number of bytes is 1 or not a power of two: the remainder of words inside of a packet is mask(log2ceil(bytes)), which is not bytes-1, and strb is undefined after the conversion back; proved for 2, 4, 8, ... bytes and for words which end a packet"
  },
  {
   "property": "C167",
   "status": "proved",
   "theorems": [
    "Verif.LocalLink.localLink_frames"
   ],
   "note": ""
  },
  {
   "property": "C168",
   "status": "partial",
   "theorems": [
    "Verif.FrameGen.frameGen_max_fails",
    "Verif.FrameGen.frameGen_frames_partial",
    "Verif.FrameGen.frameGen_enabled"
   ],
   "note": "fails for len = MAX_LEN if MAX_LEN is a power of two: the counter has log2ceil(MAX_LEN) bits; proved for lengths which fit in the counter"
  },
  {
   "property": "C169",
   "status": "partial",
   "theorems": [
    "Verif.FrameGen.frameGen_unstable",
    "Verif.FrameGen.frameGen_stable_partial"
   ],
   "note": "fails: writes of enable and len act immediately on a word which waits; proved for cycles without such a write"
  },
  {
   "property": "C17",
   "status": "proved",
   "theorems": [
    "Verif.SplitJoin.joinFair_one"
   ],
   "note": ""
  },
  {
   "property": "C170",
   "status": "partial",
   "theorems": [
    "Verif.AxisBurst.axisBurst_bytes_fails",
    "Verif.AxisBurst.axisBurst_mask_fails",
    "Verif.AxisBurst.axisBurst_bytes_partial",
    "Verif.AxisBurst.axisBurst_tuple"
   ],
   "note": "Fails for bytes: the last word is sent twice and the mask of an incomplete last word enables all lanes (words up to 64 b). The partial theorem says exactly which words are sent; tuple mode is proved."
  },
  {
   "property": "C171",
   "status": "partial",
   "theorems": [
    "Verif.FifoMeas.sizes_byte_fails",
    "Verif.FifoMeas.sizes_exact_partial"
   ],
   "note": "Fails for DATA_WIDTH=8: rem has one bit, so the size is doubled. Proved for all wider interfaces."
  },
  {
   "property": "C172",
   "status": "proved",
   "theorems": [
    "Verif.FifoMeas.measured_data",
    "Verif.FifoMeas.alignment_error"
   ],
   "note": "Fifos are lists with arbitrary readiness."
  },
  {
   "property": "C173",
   "status": "proved",
   "theorems": [
    "Verif.FooterSplit.footer_split",
    "Verif.FooterSplit.footer_ready"
   ],
   "note": "Bytes are lists of enabled lanes; model simplifications in the header of FooterSplit.lean."
  },
  {
   "property": "C174",
   "status": "partial",
   "theorems": [
    "Verif.FooterSplit.offer_fails",
    "Verif.FooterSplit.offer_partial",
    "Verif.FooterSplit.waiting_consumers_block"
   ],
   "note": "The claim is false for the code: a word shared by prefix and footer is offered only to an output whose sibling is ready; two consumers which wait for valid block forever (waiting_consumers_block). Proved: the offer of an output never depends on its own ready."
  },
  {
   "property": "C175",
   "status": "proved",
   "theorems": [
    "Verif.RmiiRx.rx_frames"
   ],
   "note": "Single clock configuration (FREQ=None)."
  },
  {
   "property": "C176",
   "status": "partial",
   "theorems": [
    "Verif.RmiiRx.resync_fails",
    "Verif.RmiiRx.resync_partial"
   ],
   "note": "Fails for gaps of any length: a carrier which ends within the preamble leaves the receiver in preamble_and_sfd and the next frame is reported as error. Proved after frames with whole header and any number of symbols (also after wrong headers, see C177)."
  },
  {
   "property": "C177",
   "status": "proved",
   "theorems": [
    "Verif.RmiiRx.rx_bad_header"
   ],
   "note": ""
  },
  {
   "property": "C178",
   "status": "partial",
   "theorems": [
    "Verif.RmiiRx.terminated_fails",
    "Verif.RmiiRx.terminated_partial"
   ],
   "note": "Fails for frames which do not end on a byte boundary: the last whole byte has neither last nor err. Proved for whole bytes."
  },
  {
   "property": "C179",
   "status": "proved",
   "theorems": [
    "Verif.AxiToAvmm.reads_forwarded"
   ],
   "note": "For each configuration and execution."
  },
  {
   "property": "C18",
   "status": "partial",
   "theorems": [
    "Verif.SplitJoin.joinFair_served_partial",
    "Verif.SplitJoin.joinFair_starves"
   ],
   "note": "starvation possible (counterexample); proved for n consecutive ready cycles"
  },
  {
   "property": "C180",
   "status": "partial",
   "theorems": [
    "Verif.AxiToAvmm.writes_fails",
    "Verif.AxiToAvmm.writes_partial"
   ],
   "note": "The claim does not hold with RW_PRIORITY=READ (witness); proved for RW_PRIORITY=WRITE and for executions in which no blocked read request waits together with a write."
  },
  {
   "property": "C181",
   "status": "partial",
   "theorems": [
    "Verif.AxiToAvmm.read_fails",
    "Verif.AxiToAvmm.read_partial",
    "Verif.AxiToAvmm.read_room_partial"
   ],
   "note": "The claim does not hold for bursts longer than the range of the capacity register (witness); proved for the accepted bursts with len < 2^width of the register."
  },
  {
   "property": "C182",
   "status": "partial",
   "theorems": [
    "Verif.AxiToAvmm.valid_fails",
    "Verif.AxiToAvmm.valid_partial",
    "Verif.AxiToAvmm.resp_waits"
   ],
   "note": "B valid depends on B ready (witness and the consequence for all executions); R valid does not."
  },
  {
   "property": "C183",
   "status": "proved",
   "theorems": [
    "Verif.AvmmToAxi.requests_forwarded",
    "Verif.AvmmToAxi.requests_accepted"
   ],
   "note": "For each configuration; burstCount at least 1 and within its width, read and write not set together."
  },
  {
   "property": "C184",
   "status": "partial",
   "theorems": [
    "Verif.AvmmToAxi.resp_fails",
    "Verif.AvmmToAxi.resp_partial"
   ],
   "note": "Errors of reads are never reported (for each configuration); the rest is proved."
  },
  {
   "property": "C185",
   "status": "partial",
   "theorems": [
    "Verif.AvmmToAxi.valid_fails",
    "Verif.AvmmToAxi.valid_partial",
    "Verif.AvmmToAxi.write_waits"
   ],
   "note": "AW and W valid depend on ready (negation for each configuration and the resulting deadlock); AR does not."
  },
  {
   "property": "C186",
   "status": "partial",
   "theorems": [
    "Verif.AvmmToAxi.width_fails",
    "Verif.AvmmToAxi.width_partial"
   ],
   "note": "Does not hold for each power of two greater than one, holds for all other values."
  },
  {
   "property": "C187",
   "status": "partial",
   "theorems": [
    "Verif.StreamToMem.transfers_fails",
    "Verif.StreamToMem.transfers_partial",
    "Verif.StreamToMem.data_forwarded",
    "Verif.StreamToMem.progress"
   ],
   "note": "Does not hold for MAX_BUTST_LEN = 1 with DATA_LEN > 1 (witness), proved for MAX_BUTST_LEN from 2 to 255 and for DATA_LEN = 1."
  },
  {
   "property": "C188",
   "status": "partial",
   "theorems": [
    "Verif.StreamToMem.control_fails",
    "Verif.StreamToMem.control_partial"
   ],
   "note": "Does not hold for any width; proved for the positions which are really used."
  },
  {
   "property": "C189",
   "status": "partial",
   "theorems": [
    "Verif.StreamToMem.idle_fails",
    "Verif.StreamToMem.idle_partial"
   ],
   "note": "Does not hold (witness); when idle all bursts were at least completely sent."
  },
  {
   "property": "C19",
   "status": "proved",
   "theorems": [
    "Verif.SplitJoin.splitFair_one"
   ],
   "note": ""
  },
  {
   "property": "C190",
   "status": "partial",
   "theorems": [
    "Verif.StreamToMem.page_fails",
    "Verif.StreamToMem.page_partial"
   ],
   "note": "Does not hold for unaligned base address (witness); proved for base addresses aligned to the size of the longest burst which divides 4096."
  },
  {
   "property": "C191",
   "status": "partial",
   "theorems": [
    "Verif.AxiResize.writes_fails",
    "Verif.AxiResize.writes_partial"
   ],
   "note": "Negation for the 8 bit to 32 bit resize (log2ceil(DATA_WIDTH//8 - 1) is 1 instead of 0); proved for all powers of two from 16 bits up. Missing: the claim does not hold for 8 bits."
  },
  {
   "property": "C192",
   "status": "partial",
   "theorems": [
    "Verif.AxiResize.reads_fails",
    "Verif.AxiResize.reads_partial",
    "Verif.AxiResize.data_offered"
   ],
   "note": "Negation for the 8 bit to 32 bit resize; proved for all powers of two from 16 bits up. Missing: the claim does not hold for 8 bits."
  },
  {
   "property": "C193",
   "status": "proved",
   "theorems": [
    "Verif.AvmmBuff.requests_forwarded",
    "Verif.AvmmBuff.request_stable",
    "Verif.AvmmBuff.request_offered"
   ],
   "note": "On the composition of the models of HandshakedFifo/HandshakedReg."
  },
  {
   "property": "C194",
   "status": "partial",
   "theorems": [
    "Verif.AvmmBuff.data_fails",
    "Verif.AvmmBuff.data_partial"
   ],
   "note": "Does not hold for DATA_BUFF_DEPTH=2 (witness); proved for all other depths."
  },
  {
   "property": "C195",
   "status": "partial",
   "theorems": [
    "Verif.AvmmBuff.read_resp_fails",
    "Verif.AvmmBuff.read_resp_ignored"
   ],
   "note": "Does not hold: outputs never depend on responses of reads (for each configuration); witness for the default configuration and for registers. No weaker positive part exists."
  },
  {
   "property": "C196",
   "status": "partial",
   "theorems": [
    "Verif.AvmmBuff.cap_fails",
    "Verif.AvmmBuff.cap_partial"
   ],
   "note": "Does not hold if the depths differ (witness); proved that the capacity is DATA_BUFF_DEPTH (1 for ADDR_BUFF_DEPTH=1)."
  },
  {
   "property": "C197",
   "status": "partial",
   "theorems": [
    "Verif.UsbSieRx.front_fails",
    "Verif.UsbSieRx.front_partial",
    "Verif.UsbSieRx.beats_shape"
   ],
   "note": "front_fails: a cycle with active=1 and valid=0 inside of a packet repeats the previous byte. front_partial: exact packets if a byte is valid in each cycle from the first byte to the end. beats_shape (all inputs): last is followed by a gap and only last is."
  },
  {
   "property": "C198",
   "status": "partial",
   "theorems": [
    "Verif.UsbSieRx.pid_fails",
    "Verif.UsbSieRx.pid_partial"
   ],
   "note": "pid_fails: byte 0x02 (ACK with wrong check field) is reported as ACK with error=0. pid_partial: tokens with wrong check field are not reported."
  },
  {
   "property": "C199",
   "status": "partial",
   "theorems": [
    "Verif.UsbSieRx.independent_fails",
    "Verif.UsbSieRx.headers_partial"
   ],
   "note": "independent_fails: no function of packet explains the headers, the token after a token of 5 bytes is lost (parser_token keeps its word index). headers_partial: the exact headers if tokens have at most 4 bytes."
  },
  {
   "property": "C20",
   "status": "partial",
   "theorems": [
    "Verif.SplitJoin.splitFair_selected_partial",
    "Verif.SplitJoin.splitFair_selected_broken"
   ],
   "note": "violated unless the prioritised output is ready"
  },
  {
   "property": "C200",
   "status": "partial",
   "theorems": [
    "Verif.UsbSieRx.sof_fails",
    "Verif.UsbSieRx.sof_partial"
   ],
   "note": "sof_fails: the frame number is compared with the address of the device, for any 5 bit CRC function. sof_partial: error iff the low 7 bits of frame number differ from the address."
  },
  {
   "property": "C201",
   "status": "partial",
   "theorems": [
    "Verif.UsbSieRx.missing_fails",
    "Verif.UsbSieRx.missing_partial",
    "Verif.UsbSieRx.token_reported"
   ],
   "note": "missing_fails: token of 2 bytes gives no header. missing_partial: no header if bytes are missing, error=1 for one byte more. token_reported: exact header of a token of 3 bytes."
  },
  {
   "property": "C202",
   "status": "proved",
   "theorems": [
    "Verif.FrameParser.fields_delivered"
   ],
   "note": "fieldOut = values of the field in all frames (and the current one if the field is already complete), after a settled cycle."
  },
  {
   "property": "C203",
   "status": "partial",
   "theorems": [
    "Verif.FrameParser.over_fails",
    "Verif.FrameParser.over_lost",
    "Verif.FrameParser.over_partial"
   ],
   "note": "over_lost: for any unaligned struct the fields which end in the last word are never delivered, for all executions (parsing_overflow is 1 in the last word and disables outputs). over_fails: witness. over_partial: all aligned structs."
  },
  {
   "property": "C204",
   "status": "partial",
   "theorems": [
    "Verif.FrameParser.under_fails",
    "Verif.FrameParser.under_deadlock",
    "Verif.FrameParser.under_partial"
   ],
   "note": "under_fails: third word of frame is delivered as the first field again. under_deadlock: number of words not a power of 2: no word is ever accepted again. under_partial: frames not longer than the struct."
  },
  {
   "property": "C205",
   "status": "partial",
   "theorems": [
    "Verif.FrameParser.underflow_fails",
    "Verif.FrameParser.underflow_partial"
   ],
   "note": "underflow_fails: a frame longer than an aligned struct with OVERFLOW_SUPPORT is reported as underflow. underflow_partial: exact if frames are not longer than the struct."
  },
  {
   "property": "C206",
   "status": "proved",
   "theorems": [
    "Verif.FrameParser.ready_independent"
   ],
   "note": ""
  },
  {
   "property": "C207",
   "status": "partial",
   "theorems": [
    "Verif.FrameDeparser.frames_fails",
    "Verif.FrameDeparser.value_lost",
    "Verif.FrameDeparser.frames_partial"
   ],
   "note": "AllSent is false for a field of 4 bits followed by a field of 8 bits in words of 8 bits (frames_fails, value_lost in general); frames_partial: holds if a field is valid only together with the fields crossing the end of its last word"
  },
  {
   "property": "C208",
   "status": "proved",
   "theorems": [
    "Verif.FrameDeparser.frames_aligned"
   ],
   "note": ""
  },
  {
   "property": "C209",
   "status": "proved",
   "theorems": [
    "Verif.FrameDeparser.valid_independent",
    "Verif.FrameDeparser.word_stable"
   ],
   "note": ""
  },
  {
   "property": "C21",
   "status": "proved",
   "theorems": [
    "Verif.SplitJoin.splitPrioritized_lowest"
   ],
   "note": ""
  },
  {
   "property": "C210",
   "status": "partial",
   "theorems": [
    "Verif.FrameDeparser.roundtrip_partial"
   ],
   "note": "under the assumption of C207 frames_partial"
  },
  {
   "property": "C211",
   "status": "proved",
   "theorems": [
    "Verif.AxiLiteIpif.requests_once",
    "Verif.AxiLiteIpif.writes_once"
   ],
   "note": ""
  },
  {
   "property": "C212",
   "status": "proved",
   "theorems": [
    "Verif.AxiLiteIpif.reads_answered",
    "Verif.AxiLiteIpif.writes_answered"
   ],
   "note": ""
  },
  {
   "property": "C213",
   "status": "proved",
   "theorems": [
    "Verif.AxiLiteIpif.ipif_stable",
    "Verif.AxiLiteIpif.axi_stable",
    "Verif.AxiLiteIpif.idle_accepts"
   ],
   "note": ""
  },
  {
   "property": "C214",
   "status": "proved",
   "theorems": [
    "Verif.IpifEndpoint.axi_memory",
    "Verif.IpifEndpoint.read_latency"
   ],
   "note": ""
  },
  {
   "property": "C215",
   "status": "proved",
   "theorems": [
    "Verif.IpifEndpoint.acked_exact"
   ],
   "note": ""
  },
  {
   "property": "C216",
   "status": "partial",
   "theorems": [
    "Verif.IpifEndpoint.answered_fails",
    "Verif.IpifEndpoint.hang",
    "Verif.IpifEndpoint.answered_partial"
   ],
   "note": "answered_fails: address behind the end of the address space; hang: after such request nothing is ever answered or accepted; answered_partial: requests to the array are answered in two cycles"
  },
  {
   "property": "C217",
   "status": "proved",
   "theorems": [
    "Verif.CacheTagArray.lookup_correct"
   ],
   "note": ""
  },
  {
   "property": "C218",
   "status": "proved",
   "theorems": [
    "Verif.CacheTagArray.lookups_answered",
    "Verif.CacheTagArray.lookup_latency"
   ],
   "note": ""
  },
  {
   "property": "C219",
   "status": "partial",
   "theorems": [
    "Verif.CacheTagArray.tags_fails",
    "Verif.CacheTagArray.tags_partial"
   ],
   "note": "tags_fails: set updated in the cycle of the lookup; tags_partial: the set was not updated in the previous cycle"
  },
  {
   "property": "C22",
   "status": "proved",
   "theorems": [
    "Verif.SplitJoin.splitSelect_routes"
   ],
   "note": ""
  },
  {
   "property": "C220",
   "status": "partial",
   "theorems": [
    "Verif.CacheWrite.safe_fails",
    "Verif.CacheWrite.safe_partial",
    "Verif.CacheWrite.safe_of_victim",
    "Verif.CacheWrite.late_victim_fails"
   ],
   "note": "safe_fails: two writes which follow each other; safe_partial: with AxiCacheLruArray, if a write is accepted only when no write to the same set is in the pipeline; safe_of_victim: the same for any LRU array which knows the victim in time, late_victim_fails: this is needed"
  },
  {
   "property": "C221",
   "status": "proved",
   "theorems": [
    "Verif.CacheWrite.victim_in_time"
   ],
   "note": ""
  },
  {
   "property": "C222",
   "status": "proved",
   "theorems": [
    "Verif.CacheWrite.writes_once"
   ],
   "note": ""
  },
  {
   "property": "C223",
   "status": "proved",
   "theorems": [
    "Verif.Buff.axi_passes"
   ],
   "note": ""
  },
  {
   "property": "C224",
   "status": "proved",
   "theorems": [
    "Verif.Buff.axi_stable"
   ],
   "note": ""
  },
  {
   "property": "C225",
   "status": "proved",
   "theorems": [
    "Verif.Buff.mi_requests",
    "Verif.Buff.mi_data"
   ],
   "note": ""
  },
  {
   "property": "C226",
   "status": "proved",
   "theorems": [
    "Verif.Mi32Bus.routing",
    "Verif.Mi32Bus.unmapped"
   ],
   "note": ""
  },
  {
   "property": "C227",
   "status": "partial",
   "theorems": [
    "Verif.Mi32Bus.reads_fails",
    "Verif.Mi32Bus.early_fails",
    "Verif.Mi32Bus.reads_partial"
   ],
   "note": "m.drdy is set whenever the order FIFO has an item, data may be later (reads_fails, latency 2) or lost (early_fails, latency 0); proved for slaves with the latency of exactly one cycle (reads_partial)"
  },
  {
   "property": "C228",
   "status": "proved",
   "theorems": [
    "Verif.Mi32Bus.Window.window"
   ],
   "note": ""
  },
  {
   "property": "C229",
   "status": "partial",
   "theorems": [
    "Verif.Mi32Bus.Window.reach_fails",
    "Verif.Mi32Bus.Window.reach_iff",
    "Verif.Mi32Bus.Window.reach_partial"
   ],
   "note": "offset register is zero-extended from DATA_WIDTH bits, upper half of m is unreachable with default parameters (reach_fails); the exact condition is reach_iff"
  },
  {
   "property": "C23",
   "status": "proved",
   "theorems": [
    "Verif.Resizer.resizer_down"
   ],
   "note": ""
  },
  {
   "property": "C230",
   "status": "partial",
   "theorems": [
    "Verif.IpifBus.once_fails",
    "Verif.IpifBus.once_partial"
   ],
   "note": "response registers are without reset (once_fails); proved if they are idle after reset or the master does not start in the first cycle"
  },
  {
   "property": "C231",
   "status": "proved",
   "theorems": [
    "Verif.IpifBus.latency",
    "Verif.IpifBus.select_latency"
   ],
   "note": ""
  },
  {
   "property": "C232",
   "status": "proved",
   "theorems": [
    "Verif.IpifBus.routing",
    "Verif.IpifBus.unmapped"
   ],
   "note": ""
  },
  {
   "property": "C233",
   "status": "proved",
   "theorems": [
    "Verif.MemEndpoint.Avalon.endpoint",
    "Verif.MemEndpoint.Avalon.first"
   ],
   "note": ""
  },
  {
   "property": "C234",
   "status": "partial",
   "theorems": [
    "Verif.MemEndpoint.Bram.holds_fails",
    "Verif.MemEndpoint.Bram.read_partial"
   ],
   "note": "readBramIndx does not respect en (holds_fails); proved while the address is stable, in particular for the cycle after the read"
  },
  {
   "property": "C235",
   "status": "proved",
   "theorems": [
    "Verif.LruArray.answered_once"
   ],
   "note": ""
  },
  {
   "property": "C236",
   "status": "partial",
   "theorems": [
    "Verif.LruArray.right_fails",
    "Verif.LruArray.right_partial"
   ],
   "note": "victim_req_r.en is not gated by ready (right_fails); proved if requests never wait"
  },
  {
   "property": "C237",
   "status": "proved",
   "theorems": [
    "Verif.LruArray.no_collision"
   ],
   "note": ""
  },
  {
   "property": "C238",
   "status": "partial",
   "theorems": [
    "Verif.LruArray.updates_fails",
    "Verif.LruArray.updates_partial"
   ],
   "note": "incr_val_oh is computed from incr.way instead of incr_tmp.way (updates_fails); proved if the ports hold the way for the next cycle"
  },
  {
   "property": "C239",
   "status": "proved",
   "theorems": [
    "Verif.SieTx.packets",
    "Verif.SieTx.packets_closed"
   ],
   "note": "Framing of both sides is defined on port traces, independent of the register of the converter."
  },
  {
   "property": "C24",
   "status": "partial",
   "theorems": [
    "Verif.Resizer.resizer_up_partial",
    "Verif.Resizer.resizer_up_broken"
   ],
   "note": "words are lost when the consumer stalls (counterexample)"
  },
  {
   "property": "C240",
   "status": "partial",
   "theorems": [
    "Verif.Ulpi.never_contends",
    "Verif.Ulpi.drives_fails",
    "Verif.Ulpi.register_writes_never_driven",
    "Verif.Ulpi.drives_partial"
   ],
   "note": "No contention is proved. That the LINK always drives its bus is false: the driver enable is utmi_tx_accept_w, no byte of a register write is ever driven (register_writes_never_driven), neither are held bytes. What holds: packet bytes in the cycle in which they are taken and the idle pattern."
  },
  {
   "property": "C241",
   "status": "partial",
   "theorems": [
    "Verif.Ulpi.tx_fails",
    "Verif.Ulpi.tx_partial"
   ],
   "note": "False if the PHY takes the bus in the middle of a packet: the rest of the packet is later sent as a new transfer (tx_fails). Proved for all executions in which the PHY does not break a transmit packet whose first byte it already took. The driver enable is not part of this claim (C240)."
  },
  {
   "property": "C242",
   "status": "partial",
   "theorems": [
    "Verif.Ulpi.sync_fails",
    "Verif.Ulpi.sync_partial"
   ],
   "note": "False if the input changes again while its register write is under way (sync_fails). Proved if an input holds still while its update is pending, including aborted writes."
  },
  {
   "property": "C243",
   "status": "proved",
   "theorems": [
    "Verif.Ulpi.rx_exact",
    "Verif.Ulpi.active_owned"
   ],
   "note": ""
  },
  {
   "property": "C244",
   "status": "partial",
   "theorems": [
    "Verif.Ulpi.disconnect_fails",
    "Verif.Ulpi.disconnect_sticky",
    "Verif.Ulpi.rxcmd_partial"
   ],
   "note": "HostDisconnect is never cleared (disconnect_sticky for all executions). The other flags are as encoded; sessEnd and sessValid only for the codes which define them."
  },
  {
   "property": "C245",
   "status": "partial",
   "theorems": [
    "Verif.SieTx.chirp_fails",
    "Verif.SieTx.chirp_forever",
    "Verif.SieTx.chirp_partial"
   ],
   "note": "A command with chirp is never consumed from the input buffer: chirp_forever for all continuations. Partial: zeros are sent during the chirp and commands without chirp are consumed."
  },
  {
   "property": "C246",
   "status": "proved",
   "theorems": [
    "Verif.Cuckoo.map_exact",
    "Verif.Cuckoo.content_exact"
   ],
   "note": "Observer map built only from port events; from reset with arbitrary memories and the clean as first command, all timings."
  },
  {
   "property": "C247",
   "status": "partial",
   "theorems": [
    "Verif.Cuckoo.delete_fails",
    "Verif.Cuckoo.delete_partial"
   ],
   "note": "Delete of a key which is not stored, while its places in all tables are occupied, erases one of the other items. Partial: right if the key is stored or some of its places is free."
  },
  {
   "property": "C248",
   "status": "partial",
   "theorems": [
    "Verif.Cuckoo.clean_fails",
    "Verif.Cuckoo.clean_partial"
   ],
   "note": "If TABLE_SIZE/TABLE_CNT is not a power of two, the hash addresses places behind the last cleaned address; garbage is found there. Partial: power of two."
  },
  {
   "property": "C249",
   "status": "proved",
   "theorems": [
    "Verif.Cuckoo.finishes"
   ],
   "note": "Decreasing measure along all runs."
  },
  {
   "property": "C25",
   "status": "proved",
   "theorems": [
    "Verif.Resizer.storedBurst_order",
    "Verif.Resizer.storedBurst_stable",
    "Verif.Resizer.storedBurst_progress"
   ],
   "note": ""
  },
  {
   "property": "C250",
   "status": "partial",
   "theorems": [
    "Verif.Cuckoo.resKey_fails",
    "Verif.Cuckoo.resKey_partial"
   ],
   "note": "If the key is not found, the key in the result is the key of the item in the table 0. Partial: right if found."
  },
  {
   "property": "C251",
   "status": "partial",
   "theorems": [
    "Verif.Cuckoo.accept_fails",
    "Verif.Cuckoo.overlap_one_never",
    "Verif.Cuckoo.accept_partial"
   ],
   "note": "With MAX_LOOKUP_OVERLAP = 1 no lookup is ever accepted; in general only MAX_LOOKUP_OVERLAP - 1 lookups overlap. Partial: accepted if fewer than MAX_LOOKUP_OVERLAP - 1 are in progress."
  },
  {
   "property": "C252",
   "status": "proved",
   "theorems": [
    "Verif.OooOp.in_order"
   ],
   "note": "Port events of the whole run; at most 4 items wait for the write and WRITE_TO_WRITE_ACK_LATENCY for the response."
  },
  {
   "property": "C253",
   "status": "partial",
   "theorems": [
    "Verif.OooOp.noLost_default_fails",
    "Verif.OooOp.noLost_tight_fails",
    "Verif.OooOp.noLost_13",
    "Verif.OooOp.atomic_partial"
   ],
   "note": "The default PIPELINE_CONFIG loses an update: write acknowledged in the clock cycle of the transfer of old read data leaves the history (1 item) before the forwarding in stage 2. Partial: WRITE_ACK_TO_READ_DATA_LATENCY at least WRITE_TO_WRITE_ACK_LATENCY + 2 + (number of acknowledged writes which read data may miss); refuted one below the bound. One bus word per item, write_cancel 0."
  },
  {
   "property": "C254",
   "status": "proved",
   "theorems": [
    "Verif.OooOp.finishes"
   ],
   "note": "For all reachable states."
  },
  {
   "property": "C255",
   "status": "partial",
   "theorems": [
    "Verif.OooOp.waits_never",
    "Verif.OooOp.noDeadlock_fails",
    "Verif.OooOp.awVld_partial"
   ],
   "note": "aw.valid waits for w.ready and w.valid waits for aw.ready (StreamNode): with a slave which waits for valid nothing is ever written. Partial: channels ready in the same clock cycle."
  },
  {
   "property": "C256",
   "status": "proved",
   "theorems": [
    "Verif.ReadAgg.answers"
   ],
   "note": "single word cache line"
  },
  {
   "property": "C257",
   "status": "proved",
   "theorems": [
    "Verif.ReadAgg.aggregates"
   ],
   "note": "single word cache line"
  },
  {
   "property": "C258",
   "status": "proved",
   "theorems": [
    "Verif.ReadAgg.not_lost"
   ],
   "note": "single word cache line"
  },
  {
   "property": "C259",
   "status": "partial",
   "theorems": [
    "Verif.ReadAgg.fresh_fails",
    "Verif.ReadAgg.fresh_partial"
   ],
   "note": "The full claim (def Fresh) is false, negation proved with a witness; proved: data are newer than any moment without a request for the line"
  },
  {
   "property": "C26",
   "status": "proved",
   "theorems": [
    "Verif.RamPort.ramPort_in_order",
    "Verif.RamPort.ramPort_progress",
    "Verif.RamPort.ramPort_stable"
   ],
   "note": "RAM modelled by its port contract; writes are arbitrary cell updates"
  },
  {
   "property": "C260",
   "status": "partial",
   "theorems": [
    "Verif.ReadAgg.starves",
    "Verif.ReadAgg.served_fails",
    "Verif.ReadAgg.served_partial"
   ],
   "note": "The full claim (def Served) is false, an unbounded starving run is constructed; proved: bound 2**ID_WIDTH + 1 if there are no new requests"
  },
  {
   "property": "C261",
   "status": "proved",
   "theorems": [
    "Verif.Axi4sBytes.roundtrip",
    "Verif.Axi4sBytes.roundtrip_all"
   ],
   "note": ""
  },
  {
   "property": "C262",
   "status": "partial",
   "theorems": [
    "Verif.Axi4sBytes.roundTrip_fails",
    "Verif.Axi4sBytes.offset_rejected",
    "Verif.Axi4sBytes.empty_frame"
   ],
   "note": "The full claim (def RoundTrip) is false; what happens in both failing cases is proved for all inputs"
  },
  {
   "property": "C263",
   "status": "partial",
   "theorems": [
    "Verif.Axi4sBytes.accepted_partial",
    "Verif.Axi4sBytes.contiguous_fails"
   ],
   "note": "The full claim (def Contiguous) is false, negation proved; all other parts proved in accepted_partial"
  },
  {
   "property": "C264",
   "status": "proved",
   "theorems": [
    "Verif.Axi4sBytes.nokeep_roundtrip",
    "Verif.Axi4sBytes.nokeep_rejected"
   ],
   "note": ""
  },
  {
   "property": "C265",
   "status": "partial",
   "theorems": [
    "Verif.BusRam.maskedWrite_int_fails",
    "Verif.BusRam.maskedWrite_inv_fails",
    "Verif.BusRam.maskedWrite_partial"
   ],
   "note": "The claim is false: for a cell with python int the mask of valid bits is taken as one bit per byte (allMask), so bytes which were not written become invalid; for 64b words a write of the first byte to an uninitialized cell gives a mask equal to allMask and all bytes become valid. Proved if all bytes are enabled or for cells which are not int, words with number of bytes not a multiple of 8 and bytewise validity."
  },
  {
   "property": "C266",
   "status": "partial",
   "theorems": [
    "Verif.BusRam.full_writes",
    "Verif.BusRam.masked_writes_partial",
    "Verif.BusRam.masked_writes_fails",
    "Verif.BusRam.write_last"
   ],
   "note": "Exact for transactions with all bytes enabled from any memory; with byte enables only under the conditions of C265. Aligned addresses, responses and ids are not modelled."
  },
  {
   "property": "C267",
   "status": "partial",
   "theorems": [
    "Verif.BusRam.unaligned_read_fails",
    "Verif.BusRam.unaligned_zero",
    "Verif.BusRam.unaligned_read_partial"
   ],
   "note": "The claim is false: the bytes of the next word are masked by the mask of the bytes of the first word after the shift, so they are always 0, also if one of the words is not initialized. Proved if these bytes are 0. For cells with python int."
  },
  {
   "property": "C268",
   "status": "partial",
   "theorems": [
    "Verif.BusRam.unaligned_write_fails",
    "Verif.BusRam.unaligned_write_partial"
   ],
   "note": "The claim is false: the second word is shifted by offset instead of the word size minus offset and it is masked by the byte mask. Proved for the first word and for all words other than the second one, memory without python int, fully valid data with all bytes enabled."
  },
  {
   "property": "C269",
   "status": "proved",
   "theorems": [
    "Verif.AxisFifoCopy.word_exact",
    "Verif.AxisFifoCopy.word_offered",
    "Verif.AxisFifoCopy.ready_iff"
   ],
   "note": "DEPTH at least 3 (DEPTH=2 is rejected by an assert of FifoCopy)."
  },
  {
   "property": "C27",
   "status": "partial",
   "theorems": [
    "Verif.FifoDrop.fifoDrop_correct_partial",
    "Verif.FifoDrop.fifoDrop_wrap_discard_broken",
    "Verif.FifoDrop.fifoDrop_wrap_discard_deadlock",
    "Verif.FifoDrop.fifoDrop_wrap_discard_corrupts"
   ],
   "note": "Proved for all histories in which no discard coincides with the read of the last memory cell; in the excluded case the code deadlocks or corrupts (counterexamples proved)."
  },
  {
   "property": "C270",
   "status": "partial",
   "theorems": [
    "Verif.AxisFifoCopy.fits_fails",
    "Verif.AxisFifoCopy.long_frame_stuck",
    "Verif.AxisFifoCopy.frame_fits_partial"
   ],
   "note": "The claim is false for frames of DEPTH-1 words: the inner fifo has depth DEPTH-1, one place of it is not usable and the words are released only after the last word of the frame, so only DEPTH-2 words of a frame are ever accepted. Proved for frames of at most DEPTH-2 words."
  },
  {
   "property": "C271",
   "status": "partial",
   "theorems": [
    "Verif.AxisFifoCopy.Reg.reg_id_fails",
    "Verif.AxisFifoCopy.Reg.reg_partial"
   ],
   "note": "The claim is false: the id is replaced if dataOut_copy_frame is set also if there is nothing on the output. Proved if it is set only with valid on the output."
  },
  {
   "property": "C272",
   "status": "partial",
   "theorems": [
    "Verif.AxisFifoDrop.frames_fails",
    "Verif.AxisFifoDrop.stuck_forever",
    "Verif.AxisFifoDrop.frames_partial"
   ],
   "note": "The claim is false if a discard is in the cycle in which the read pointer wraps (see C27): the empty fifo looks full for ever. Proved if there is no such discard, stated by the number of words which were taken."
  },
  {
   "property": "C273",
   "status": "partial",
   "theorems": [
    "Verif.AxisFifoDrop.size_fails",
    "Verif.AxisFifoDrop.size_partial"
   ],
   "note": "The claim is false: commit is valid and last also if the word is discarded, so a frame discarded in its last word is added to the size. Proved if frames are not discarded in the cycle of the last word."
  },
  {
   "property": "C274",
   "status": "partial",
   "theorems": [
    "Verif.EpBuffers.rx_packets_fails",
    "Verif.EpBuffers.rx_packets_partial"
   ],
   "note": "Full claim is false: the error of a packet for an other endpoint in the cycle in which the read pointer of the fifo wraps makes the empty fifo look full. Proved if there is no error in this cycle, for packets which are not interleaved and an error word which is kept until it is accepted."
  },
  {
   "property": "C275",
   "status": "partial",
   "theorems": [
    "Verif.EpBuffers.rx_absent",
    "Verif.EpBuffers.tx_absent",
    "Verif.EpBuffers.tx_defined_fails"
   ],
   "note": "The rx side is proved. On the tx side the stall is proved, but tx is valid with undefined data (negation proved)."
  },
  {
   "property": "C276",
   "status": "proved",
   "theorems": [
    "Verif.EpBuffers.tx_complete",
    "Verif.EpBuffers.tx_gapless",
    "Verif.EpBuffers.tx_offered",
    "Verif.EpBuffers.tx_accept"
   ],
   "note": "Buffered endpoints, dataOut_copy_frame is 0 as in the code."
  },
  {
   "property": "C277",
   "status": "partial",
   "theorems": [
    "Verif.EpBuffers.tx_fits_fails",
    "Verif.EpBuffers.tx_long_stuck",
    "Verif.EpBuffers.tx_fits_partial"
   ],
   "note": "Full claim is false: at most buffer_size-2 words are accepted before the last word is there and the packet is never sent. Proved: if every buffer_size-2 consecutive words contain an end of packet then a word is accepted or a complete packet waits for the host."
  },
  {
   "property": "C278",
   "status": "proved",
   "theorems": [
    "Verif.UsbNego.usb_reset_iff"
   ],
   "note": "The comment in the code says 2.5 us, 2^14 cycles are 273 us for 60 MHz; the theorem states the implemented number."
  },
  {
   "property": "C279",
   "status": "proved",
   "theorems": [
    "Verif.UsbNego.chirp_after_se0"
   ],
   "note": ""
  },
  {
   "property": "C28",
   "status": "partial",
   "theorems": [
    "Verif.FifoDrop.fifoDrop_space_partial",
    "Verif.FifoDrop.fifoDrop_space_broken"
   ],
   "note": "The code violates it for every depth (a write never decrements space); proved: cycles without write/discard update it right."
  },
  {
   "property": "C280",
   "status": "proved",
   "theorems": [
    "Verif.UsbNego.chirp_length",
    "Verif.UsbNego.ok_60MHz"
   ],
   "note": "Hypothesis Ok: HS_RESET_TIME + 1 < 2^width; it holds for the default frequency."
  },
  {
   "property": "C281",
   "status": "partial",
   "theorems": [
    "Verif.UsbNego.ends_fails",
    "Verif.UsbNego.nego_stuck",
    "Verif.UsbNego.nego_ends_partial",
    "Verif.UsbNego.reset_leaves_partial"
   ],
   "note": "Full claim is false: if HS_RESET_TIME is a power of two (CLK_FREQ = 100 * 2^k Hz), the timer saturates below it and without chirps of the host the device never leaves the negotiation. Proved with the bound HS_RESET_TIME + 2 if HS_RESET_TIME + 1 < 2^width."
  },
  {
   "property": "C282",
   "status": "partial",
   "theorems": [
    "Verif.UsbNego.hs_needs_changes",
    "Verif.UsbNego.hs_needs_jk_fails"
   ],
   "note": "At least 6 changes are proved. That they are K and J is false: all changes of the line state are counted, SE0 and J are enough."
  },
  {
   "property": "C283",
   "status": "partial",
   "theorems": [
    "Verif.UsbEpFsm.in_toggle_partial",
    "Verif.UsbEpFsm.in_retry_fails"
   ],
   "note": "Toggle of each sent packet is the expected one; the toggle is changed without ACK of the host, so the repeated packet has a different pid (negation proved)."
  },
  {
   "property": "C284",
   "status": "partial",
   "theorems": [
    "Verif.UsbEpFsm.ack_good",
    "Verif.UsbEpFsm.retransmit_ignored",
    "Verif.UsbEpFsm.retransmit_fails"
   ],
   "note": "ACK only for good data proved. A packet with old toggle is never answered (proved for all such transactions), so the host can not recover from a lost ACK."
  },
  {
   "property": "C285",
   "status": "partial",
   "theorems": [
    "Verif.UsbEpFsm.err_token_fails",
    "Verif.UsbEpFsm.err_no_data_partial"
   ],
   "note": "The machine does not use rx_header.error: it answers tokens of other devices by handshake. No data are moved."
  },
  {
   "property": "C286",
   "status": "partial",
   "theorems": [
    "Verif.UsbEpFsm.ping_fails",
    "Verif.UsbEpFsm.ping_ack_full",
    "Verif.UsbEpFsm.ping_answer_partial"
   ],
   "note": "ACK depends on ep_tx.valid instead of ep_rx.ready."
  },
  {
   "property": "C287",
   "status": "partial",
   "theorems": [
    "Verif.UsbEpFsm.out_acked_fails",
    "Verif.UsbEpFsm.out_acked_partial"
   ],
   "note": "tx_stall of IN direction replaces ACK by STALL."
  },
  {
   "property": "C288",
   "status": "partial",
   "theorems": [
    "Verif.UsbEpFsm.in_answered_fails",
    "Verif.UsbEpFsm.lost_data_deaf",
    "Verif.UsbEpFsm.in_answered_partial"
   ],
   "note": "If the data packet after OUT token is lost the device does not answer until the end of some data packet."
  },
  {
   "property": "C289",
   "status": "proved",
   "theorems": [
    "Verif.UsbEpFsm.tx_words"
   ],
   "note": "Under the stated behaviour of the host and SIE."
  },
  {
   "property": "C29",
   "status": "proved",
   "theorems": [
    "Verif.FifoCopy.fifoCopy_delivers",
    "Verif.FifoCopy.fifoCopy_flags",
    "Verif.FifoCopy.fifoCopy_plain_in_order",
    "Verif.FifoCopy.fifoCopy_frame_twice"
   ],
   "note": "Documented use = a replay is requested only while a word of the frame is stored (CopyOk)."
  },
  {
   "property": "C290",
   "status": "proved",
   "theorems": [
    "Verif.UsbEp0.addr_change",
    "Verif.UsbEp0.set_address",
    "Verif.UsbEp0.addr_reset"
   ],
   "note": ""
  },
  {
   "property": "C291",
   "status": "partial",
   "theorems": [
    "Verif.UsbEp0.get_stream_partial",
    "Verif.UsbEp0.get_complete_fails",
    "Verif.UsbEp0.get_multiple_stuck"
   ],
   "note": "Proved when the length is not a multiple of the packet size. Otherwise the data stage never ends and nothing is accepted until reset (proved for all such requests)."
  },
  {
   "property": "C292",
   "status": "partial",
   "theorems": [
    "Verif.UsbEp0.len_bounded_fails",
    "Verif.UsbEp0.string_ignores_length",
    "Verif.UsbEp0.get_stream_partial"
   ],
   "note": "Strings are not cut to wLength; device and configuration are."
  },
  {
   "property": "C293",
   "status": "partial",
   "theorems": [
    "Verif.UsbEp0.stall_ends_fails",
    "Verif.UsbEp0.stall_leaks",
    "Verif.UsbEp0.stall_ends_partial"
   ],
   "note": "The stall of a request without data stays after its answer and makes STALL for all other IN endpoints."
  },
  {
   "property": "C294",
   "status": "partial",
   "theorems": [
    "Verif.UsbEp0.setup_ready_fails",
    "Verif.UsbEp0.aborted_stuck",
    "Verif.UsbEp0.request_lost",
    "Verif.UsbEp0.setup_ready_partial"
   ],
   "note": "Not ready in DATA_GET and STATUS_IN; lost in STATUS_OUT."
  },
  {
   "property": "C295",
   "status": "proved",
   "theorems": [
    "Verif.UsbEp0.configured_change"
   ],
   "note": ""
  },
  {
   "property": "C296",
   "status": "partial",
   "theorems": [
    "Verif.UsbEp0.status_two_bytes_fails",
    "Verif.UsbEp0.get_status_stuck"
   ],
   "note": "ep0_trans_len is not set; after reset the request blocks the device until the next reset."
  },
  {
   "property": "C297",
   "status": "partial",
   "theorems": [
    "Verif.UsbEp0.set_interface_fails",
    "Verif.UsbEp0.set_interface_stalls",
    "Verif.UsbEp0.code11_checked"
   ],
   "note": "The constant is 0x11 instead of 11, the claim is false for all states."
  },
  {
   "property": "C298",
   "status": "partial",
   "theorems": [
    "Verif.UsbEp0.set_data_fails",
    "Verif.UsbEp0.set_data_partial"
   ],
   "note": "The length is not loaded from the request."
  },
  {
   "property": "C299",
   "status": "partial",
   "theorems": [
    "Verif.UsbCrc.tx_crc_fails",
    "Verif.UsbCrc.tx_crc_iff",
    "Verif.UsbCrc.tx_crc_partial"
   ],
   "note": "negation with packet 00 01 02 03; exact characterisation of right packets and of sent bytes"
  },
  {
   "property": "C30",
   "status": "proved",
   "theorems": [
    "Verif.FifoAsync.fifoAsync_order",
    "Verif.FifoAsync.fifoAsync_flags_safe"
   ],
   "note": "Includes simultaneous edges with arbitrary per-bit old/new sampling in the first synchroniser stage. Reset is only modelled as the initial state."
  },
  {
   "property": "C300",
   "status": "partial",
   "theorems": [
    "Verif.UsbCrc.rx_crc_fails",
    "Verif.UsbCrc.rx_crc_partial",
    "Verif.UsbCrc.rx_burst"
   ],
   "note": "negation; accepted packets are exactly those of the transmitter, bursts are detected"
  },
  {
   "property": "C301",
   "status": "partial",
   "theorems": [
    "Verif.UsbCrc.naive_crc_fails",
    "Verif.UsbCrc.naive_crc_partial",
    "Verif.UsbCrc.naive_crc_reversed"
   ],
   "note": "negation for reflected CRC; right without reflection, bit reversed with it"
  },
  {
   "property": "C302",
   "status": "partial",
   "theorems": [
    "Verif.UsbCrc.token_crc_fails",
    "Verif.UsbCrc.token_crc_partial",
    "Verif.UsbCrc.agent_same"
   ],
   "note": "negation for SETUP of address 0; exact characterisation; agent = device"
  },
  {
   "property": "C303",
   "status": "proved",
   "theorems": [
    "Verif.StrFormat.format_exact",
    "Verif.StrFormat.frame_eq",
    "Verif.StrFormat.exEnv_wf"
   ],
   "note": "hypothesis Wf.cw (counter wide enough) is C306"
  },
  {
   "property": "C304",
   "status": "proved",
   "theorems": [
    "Verif.StrFormat.format_progress"
   ],
   "note": ""
  },
  {
   "property": "C305",
   "status": "partial",
   "theorems": [
    "Verif.StrFormat.parse_fails",
    "Verif.StrFormat.parse_no_escape",
    "Verif.StrFormat.parse_partial"
   ],
   "note": "re.split returns empty strings between the braces, so the test of t_next never matches and every format string with an escape sequence raises ValueError; proved for texts without braces"
  },
  {
   "property": "C306",
   "status": "partial",
   "theorems": [
    "Verif.StrFormat.counter_fits_fails",
    "Verif.StrFormat.counter_endless",
    "Verif.StrFormat.counter_fits_partial"
   ],
   "note": "digits of the second item of the same type (b, o, x, X) are not used for the width of the counter; {0:2x}{1:8x} never finishes; proved if the first item of a type is the longest"
  },
  {
   "property": "C307",
   "status": "partial",
   "theorems": [
    "Verif.StrFormat.printf_fails",
    "Verif.StrFormat.printf_cut",
    "Verif.StrFormat.printf_partial"
   ],
   "note": "numbers are always filled by zeros and longer numbers are cut; equal to printf with flag 0 for numbers with at most the specified digits"
  },
  {
   "property": "C308",
   "status": "partial",
   "theorems": [
    "Verif.Pid.pid_fails",
    "Verif.Pid.pid_partial",
    "Verif.Pid.pid_negated"
   ],
   "note": "the code uses e = input - target, the opposite sign of the documentation; proved with the opposite sign (equal to the documentation with negated a0)"
  },
  {
   "property": "C309",
   "status": "proved",
   "theorems": [
    "Verif.Ripple.ripple_add",
    "Verif.Ripple.ripple0_fails",
    "Verif.Ripple.chain"
   ],
   "note": "RippleAdder0 (not part of the claim) does not add: operand b is not connected"
  },
  {
   "property": "C31",
   "status": "partial",
   "theorems": [
    "Verif.FifoArray.fifoArray_order_partial",
    "Verif.FifoArray.fifoArray_pop_partial",
    "Verif.FifoArray.fifoArray_alloc_partial",
    "Verif.FifoArray.junkOk_of_addrRet",
    "Verif.FifoArray.fifoArray_junk_addr_corrupts"
   ],
   "note": "Violated as stated: on append=0 the documented-as-ignored insert.addr is written (fifoArray_junk_addr_corrupts). Partial theorems hold for every history where that address is not a node with a successor; junkOk_of_addrRet shows a user strategy which meets this."
  },
  {
   "property": "C310",
   "status": "partial",
   "theorems": [
    "Verif.FlipRam.flip_read_fails",
    "Verif.FlipRam.flip_read_partial",
    "Verif.FlipRam.flip_read_other"
   ],
   "note": "select of the next cycle multiplexes the data, a read in the cycle before a flip returns the data of the other side; proved if select is the same in both cycles"
  },
  {
   "property": "C311",
   "status": "proved",
   "theorems": [
    "Verif.FlipRam.flip_isolated",
    "Verif.FlipRam.flip_exchange"
   ],
   "note": ""
  },
  {
   "property": "C312",
   "status": "partial",
   "theorems": [
    "Verif.PolyStr.poly_fails",
    "Verif.PolyStr.poly_doc",
    "Verif.PolyStr.poly_wrong",
    "Verif.PolyStr.poly_partial",
    "Verif.PolyStr.poly_high"
   ],
   "note": "the example of the documentation 7x^2 + 6x - 5 raises ValueError, x + 10 is parsed as x + 1, power equal to width raises IndexError; proved for x^a + x^b + ... + 1 with powers lower than width"
  },
  {
   "property": "C313",
   "status": "partial",
   "theorems": [
    "Verif.Ping.checksum_fails",
    "Verif.Ping.checksum_partial"
   ],
   "note": "the end around carry is missing; correct iff identifier + seqNo < 2^16"
  },
  {
   "property": "C314",
   "status": "partial",
   "theorems": [
    "Verif.Ping.reply_fails",
    "Verif.Ping.decision_fails",
    "Verif.Ping.reply_partial"
   ],
   "note": "tx.ready is ignored when the reply ends, so the last word is lost if the consumer is not ready; if the address or type are in the last word the decision uses the previous request; proved for a consumer which takes the last word at once and a bus where address and type precede the last word"
  },
  {
   "property": "C315",
   "status": "partial",
   "theorems": [
    "Verif.FrameJoinReg.conserved_fails",
    "Verif.FrameJoinReg.conserved_partial"
   ],
   "note": "with REG_CNT = 3 a word is duplicated while it moves to the output; proved for REG_CNT 1 and 2"
  },
  {
   "property": "C316",
   "status": "proved",
   "theorems": [
    "Verif.FrameAlign.next_offsets"
   ],
   "note": "data_width > 0; the loop ends within data_width + 1 passes"
  },
  {
   "property": "C317",
   "status": "proved",
   "theorems": [
    "Verif.FrameAlign.create_frame",
    "Verif.FrameAlign.join_streams"
   ],
   "note": "offset_in < word_bytes as asserted by the code"
  },
  {
   "property": "C318",
   "status": "partial",
   "theorems": [
    "Verif.FrameAlign.sizes_fails",
    "Verif.FrameAlign.sizes_middle_fails",
    "Verif.FrameAlign.sizes_cover_partial",
    "Verif.FrameAlign.sizes_sound_partial"
   ],
   "note": "violated for a minimum of at least 2*word_bytes (reduced modulo) and for an offset with a fixed length; coverage and soundness proved otherwise, for offset_in = offset_out"
  },
  {
   "property": "C319",
   "status": "proved",
   "theorems": [
    "Verif.FrameJoinFsm.det_iff",
    "Verif.FrameJoinFsm.outputs_consistent",
    "Verif.FrameJoinFsm.outputs_idle",
    "Verif.FrameJoinFsm.drive_perm"
   ],
   "note": "tables with the shape created by StateTransItem"
  },
  {
   "property": "C32",
   "status": "proved",
   "theorems": [
    "Verif.Ram.ram_read_last_write",
    "Verif.Ram.ram_read_initial",
    "Verif.Ram.be_protects",
    "Verif.Ram.ram_dout_holds"
   ],
   "note": "Any number of ports, widths, histories; simultaneous writes of one bit by two ports are excluded."
  },
  {
   "property": "C320",
   "status": "partial",
   "theorems": [
    "Verif.FrameJoin.joined_partial",
    "Verif.FrameJoin.samples_ok",
    "Verif.FrameJoin.joined_samples_partial"
   ],
   "note": "Proved for every table of transitions accepted by the decidable check, for all executions; the check is evaluated in the kernel for 19 configurations (default, all of the tests of the component and of the table, several others). Missing: a proof that every generated table passes the check."
  },
  {
   "property": "C321",
   "status": "partial",
   "theorems": [
    "Verif.FrameJoin.progress_fails",
    "Verif.FrameJoin.progress_partial"
   ],
   "note": "Violated: two frames of (1, inf) bytes in 2-byte words stop forever when frame 0 has 1 byte and frame 1 at least 4 bytes (count_not_none returns the index of the first byte, so that the offsets of following frames are wrong). Proved for the default configuration: if both inputs offer a word and the output is ready for two cycles a word leaves, in every reachable state."
  },
  {
   "property": "C322",
   "status": "partial",
   "theorems": [
    "Verif.Axi4sEq.eq_partial",
    "Verif.Axi4sEq.eq_exact_partial",
    "Verif.Axi4sEq.answer_count",
    "Verif.Axi4sEq.eq_single",
    "Verif.Axi4sEq.eq_short_fails"
   ],
   "note": "Violated for frames which are shorter than the value (a frame of the single byte AB is equal to the address 01:23:45:67:89:AB). Proved: one answer per frame, and right answers for frames of the proper length if the consumer is ready."
  },
  {
   "property": "C323",
   "status": "partial",
   "theorems": [
    "Verif.Axi4sEq.eq_stall_fails",
    "Verif.Axi4sEq.eq_partial"
   ],
   "note": "Violated: words accepted in cycles with dataOut.rd = 0 are not compared (the register is updated by the acknowledge of the whole node). Proved for a consumer which is ready in each cycle with a word."
  },
  {
   "property": "C324",
   "status": "partial",
   "theorems": [
    "Verif.EthMacRx.foreign_fails",
    "Verif.EthMacRx.rx_partial",
    "Verif.EthMacRx.rx_frames_partial"
   ],
   "note": "Violated: the error is seen only in one cycle, bytes which enter the fifo later are delivered (a frame of another station is delivered without its first two bytes). Proved: if all frames are for this station and good, and the fifo does not overflow, only frames without the FCS are delivered, in order, for all timings."
  },
  {
   "property": "C325",
   "status": "partial",
   "theorems": [
    "Verif.EthMacRx.phyErr_fails",
    "Verif.EthMacRx.rx_partial",
    "Verif.EthMacRx.rx_frames_partial"
   ],
   "note": "Violated: only the bytes which were received before the error are dropped, the rest is delivered as a frame. Proved for streams without errors."
  },
  {
   "property": "C326",
   "status": "partial",
   "theorems": [
    "Verif.EthMacRx.wrong_fails",
    "Verif.EthMacRx.dead_forever",
    "Verif.EthMacRx.rx_frames_partial"
   ],
   "note": "Violated: if the last word of the previous frame leaves in the cycle of the check, the last byte of the bad frame is stored as a frame and blocks the receiver forever. Proved for streams of good frames."
  },
  {
   "property": "C327",
   "status": "partial",
   "theorems": [
    "Verif.EthMacRx.overflow_fails",
    "Verif.EthMacRx.rx_frames_partial"
   ],
   "note": "Violated: the end of the frame is delivered, a byte in the middle of it is missing. Proved if there is no overflow."
  },
  {
   "property": "C328",
   "status": "partial",
   "theorems": [
    "Verif.EthMacRx.two_fails",
    "Verif.EthMacRx.dead_forever",
    "Verif.EthMacRx.rx_frames_partial"
   ],
   "note": "Violated: a frame of 84 bytes followed by a frame of 64 bytes (with the standard gap): the result of the check of the second frame is cleared by the last word of the first one and the receiver is blocked forever, whatever is received (dead_forever). Proved: what is delivered is a prefix of the received frames."
  },
  {
   "property": "C329",
   "status": "partial",
   "theorems": [
    "Verif.EthMacRx.stall_fails",
    "Verif.EthMacRx.dead_forever",
    "Verif.EthMacRx.rx_frames_partial"
   ],
   "note": "Violated: if the consumer is not ready in the one cycle with the last word, the result of the check is cleared and the receiver is blocked forever. Proved: what is delivered is a prefix of the received frames."
  },
  {
   "property": "C33",
   "status": "proved",
   "theorems": [
    "Verif.Ram.ram_split_equiv",
    "Verif.Ram.childWidth_sum"
   ],
   "note": "Every width and block width."
  },
  {
   "property": "C330",
   "status": "proved",
   "theorems": [
    "Verif.WriteAgg.writeAgg_stream"
   ],
   "note": "line size 2^k words"
  },
  {
   "property": "C331",
   "status": "proved",
   "theorems": [
    "Verif.WriteAgg.writeAgg_responses"
   ],
   "note": ""
  },
  {
   "property": "C332",
   "status": "partial",
   "theorems": [
    "Verif.WriteAgg.writeAgg_not_merged",
    "Verif.WriteAgg.writeAgg_order_partial"
   ],
   "note": "violated: the lookup of items returns only locked items and the merge accepts only unlocked ones, so nothing is ever merged; proved that each line is one transaction in order"
  },
  {
   "property": "C333",
   "status": "partial",
   "theorems": [
    "Verif.WriteAgg.writeAgg_two_in_flight",
    "Verif.WriteAgg.writeAgg_order_partial"
   ],
   "note": "violated: because of C332 two transactions of a line with different ids are in flight; proved that they are started in order of writes"
  },
  {
   "property": "C334",
   "status": "proved",
   "theorems": [
    "Verif.WriteAgg.writeAgg_ids"
   ],
   "note": ""
  },
  {
   "property": "C335",
   "status": "proved",
   "theorems": [
    "Verif.StoreQueue.sq_answers"
   ],
   "note": "One word per line (the only configuration which can be elaborated)."
  },
  {
   "property": "C336",
   "status": "proved",
   "theorems": [
    "Verif.StoreQueue.sq_exokay"
   ],
   "note": "Ready consumer (the documentation allows invalid data for a stalled one)."
  },
  {
   "property": "C337",
   "status": "proved",
   "theorems": [
    "Verif.StoreQueue.sq_okay"
   ],
   "note": "Ready consumer."
  },
  {
   "property": "C338",
   "status": "partial",
   "theorems": [
    "Verif.StoreQueue.sq_not_latest",
    "Verif.StoreQueue.sq_latest_partial"
   ],
   "note": "Violated: the aggregator stores two items of one line and the read takes the lowest slot index; witness returns 7 after 7, 8. Partial: holds if the line is written once."
  },
  {
   "property": "C339",
   "status": "partial",
   "theorems": [
    "Verif.StoreQueue.sq_not_written",
    "Verif.StoreQueue.sq_written_partial"
   ],
   "note": "Violated: the strobe is not part of the answer; witness with a write of one byte of two. Partial: holds if all writes enable all bytes."
  },
  {
   "property": "C34",
   "status": "partial",
   "theorems": [
    "Verif.RamXor.ramXor_read_last_write_partial",
    "Verif.RamXor.ramXor_read_initial_partial",
    "Verif.RamXor.ramXor_not_full",
    "Verif.RamXor.ramXor_consecutive_writes_corrupt",
    "Verif.RamXor.ramXor_stale_read",
    "Verif.RamXor.ramXor_forward_wrong_address"
   ],
   "note": "Violated as stated (three separate hazards with witnesses). The partial theorems hold for every schedule with the three restrictions stated there."
  },
  {
   "property": "C340",
   "status": "partial",
   "theorems": [
    "Verif.Hd44780.not_noEarlyCommand",
    "Verif.Hd44780.lcd_powerup_partial"
   ],
   "note": "Violated: en pulses with the function set command in the first LCD clocks after reset. Partial: this is the only command in the delay and no character is accepted."
  },
  {
   "property": "C341",
   "status": "proved",
   "theorems": [
    "Verif.Hd44780.lcd_commands"
   ],
   "note": "The list starts with the additional strobe of C340."
  },
  {
   "property": "C342",
   "status": "proved",
   "theorems": [
    "Verif.Hd44780.lcd_stable"
   ],
   "note": "Requires a producer which keeps the offered character."
  },
  {
   "property": "C343",
   "status": "proved",
   "theorems": [
    "Verif.Hd44780.lcd_progress",
    "Verif.Hd44780.lcd_text"
   ],
   "note": "Bound not tight."
  },
  {
   "property": "C344",
   "status": "partial",
   "theorems": [
    "Verif.Hd44780.not_screenShowsText",
    "Verif.Hd44780.lcd_screen_partial"
   ],
   "note": "Violated: the form feed does not reset the row register; witness new line, form feed, new line, 'a'. Partial: holds if form feeds are only in the first line."
  },
  {
   "property": "C345",
   "status": "proved",
   "theorems": [
    "Verif.DbgMon.meta_roundtrip"
   ],
   "note": "Bus of 32 bits; JSON parser of Python is trusted."
  },
  {
   "property": "C346",
   "status": "partial",
   "theorems": [
    "Verif.DbgMon.not_metaDescribesData",
    "Verif.DbgMon.meta_describes_partial"
   ],
   "note": "Violated: offsets follow the hierarchy but the data memory follows the order of registration; witness a, b, c with c child of a. Partial: holds if records are registered parent first."
  },
  {
   "property": "C347",
   "status": "partial",
   "theorems": [
    "Verif.DbgMon.not_dumpShowsValues",
    "Verif.DbgMon.dump_partial"
   ],
   "note": "Violated: get_data_memory_width ignores children, bits behind the last root are read as 0; witness container with one signal. Partial: holds if the last record is a root."
  },
  {
   "property": "C348",
   "status": "partial",
   "theorems": [
    "Verif.DbgMon.not_dumpShowsRecords",
    "Verif.DbgMon.dump_records_partial"
   ],
   "note": "Violated: children of a record of a single signal are not printed. Partial: holds if such records have no children."
  },
  {
   "property": "C349",
   "status": "partial",
   "theorems": [
    "Verif.DbgMon.not_colorsAsDocumented",
    "Verif.DbgMon.color_partial"
   ],
   "note": "Violated: condition or instead of and, active valid without ready is red. Partial: holds if the interface has both or none of the signals."
  },
  {
   "property": "C35",
   "status": "proved",
   "theorems": [
    "Verif.Cam.cam_match_last_write",
    "Verif.Cam.cam_unwritten_no_match",
    "Verif.Cam.cam_answers_once",
    "Verif.Cam.cam_novld_unwritten_matches_zero"
   ],
   "note": "For USE_VLD_BIT=True; without it never written cells match key 0 (cam_novld_unwritten_matches_zero)."
  },
  {
   "property": "C350",
   "status": "proved",
   "theorems": [
    "Verif.StrbStash.word_plain_masks",
    "Verif.StrbStash.word_plain_some"
   ],
   "note": "Masks are compared to the bits of the word."
  },
  {
   "property": "C351",
   "status": "partial",
   "theorems": [
    "Verif.StrbStash.strbSpec_violated",
    "Verif.StrbStash.strb_is_keep_mask",
    "Verif.StrbStash.word_strb_partial"
   ],
   "note": "Violated: a constant mask of a union is used as a truth value (padding gets strb); also strb is overwritten by the mask of keep. Partial: holds if data bytes are the kept bytes and members have different masks or a uniform one."
  },
  {
   "property": "C352",
   "status": "partial",
   "theorems": [
    "Verif.StrbStash.keepSpec_violated",
    "Verif.StrbStash.word_keep_partial"
   ],
   "note": "Violated: keep of the last member is used for all. Partial: holds if all parts of the union have the same keep."
  },
  {
   "property": "C353",
   "status": "proved",
   "theorems": [
    "Verif.HwExc.raise_data",
    "Verif.HwExc.raise_stable"
   ],
   "note": ""
  },
  {
   "property": "C354",
   "status": "proved",
   "theorems": [
    "Verif.HwExc.raise_stalls",
    "Verif.HwExc.pending_iff"
   ],
   "note": ""
  },
  {
   "property": "C355",
   "status": "partial",
   "theorems": [
    "Verif.HwExc.raiseHeld_violated",
    "Verif.HwExc.raise_held_partial"
   ],
   "note": "Violated: the raising value is consumed in the cycle of the raise, vld falls with it and only the pending register remembers it. Partial: vld is held while the value is not accepted."
  },
  {
   "property": "C356",
   "status": "partial",
   "theorems": [
    "Verif.HwExc.exactlyOnce_violated",
    "Verif.HwExc.lost_example",
    "Verif.HwExc.twice_example",
    "Verif.HwExc.exactly_once_partial",
    "Verif.HwExc.raised_when_accepted"
   ],
   "note": "Violated both ways: a late rd clears the pending exception without vld, and a value which waits behind the other exception raises in every cycle. Partial: holds if handlers are always ready; never silently dropped."
  },
  {
   "property": "C357",
   "status": "proved",
   "theorems": [
    "Verif.HwExc.catch_data"
   ],
   "note": ""
  },
  {
   "property": "C358",
   "status": "partial",
   "theorems": [
    "Verif.HwExc.catchStalls_violated",
    "Verif.HwExc.catch_stalls_partial"
   ],
   "note": "Violated: after 0 a value 2 is still accepted and lost. Partial: after 2 nothing is accepted, after 0 nothing but 2."
  },
  {
   "property": "C359",
   "status": "partial",
   "theorems": [
    "Verif.AddrDataAxi.overlapLimit_violated",
    "Verif.AddrDataAxi.overlap_limit_partial",
    "Verif.AddrDataAxi.cntr_eq",
    "Verif.AddrDataAxi.accepted_together",
    "Verif.AddrDataAxi.accepted_below_limit"
   ],
   "note": "Violated for limits which are not a power of two: 6 transactions pending with limit 5. Partial: the bound 2^log2ceil(limit)-1, which respects the limit if it is a power of two; requests are accepted together with all their parts and always below the bound."
  },
  {
   "property": "C36",
   "status": "partial",
   "theorems": [
    "Verif.Cam.cam_addressable_iff",
    "Verif.Cam.cam_cell_unreachable"
   ],
   "note": "Violated for ITEMS=2^e+1, exact characterisation proved."
  },
  {
   "property": "C360",
   "status": "partial",
   "theorems": [
    "Verif.AddrDataAxi.placeSpec_violated",
    "Verif.AddrDataAxi.place_unaligned",
    "Verif.AddrDataAxi.place_partial"
   ],
   "note": "Violated: the step is not used for words which share an AXI word, and an offset not aligned to the AXI word is rounded down. Partial: aligned offset and a step equal to the width of the word or a word longer than half of the AXI word."
  },
  {
   "property": "C361",
   "status": "partial",
   "theorems": [
    "Verif.AddrDataAxi.noOverlap_violated",
    "Verif.AddrDataAxi.no_overlap_partial"
   ],
   "note": "Violated for steps shorter than a byte (two words of 4b share a byte). Partial: all steps of at least a byte, for every offset."
  },
  {
   "property": "C362",
   "status": "partial",
   "theorems": [
    "Verif.AddrDataAxi.len_eq",
    "Verif.AddrDataAxi.pageSpec_violated",
    "Verif.AddrDataAxi.page_partial"
   ],
   "note": "The length holds. Pages: violated for offset 4088. Partial: offset multiple of the step."
  },
  {
   "property": "C363",
   "status": "proved",
   "theorems": [
    "Verif.MemSpace.addr_eq",
    "Verif.MemSpace.addr_inj",
    "Verif.MemSpace.place_inside",
    "Verif.MemSpace.place_disjoint"
   ],
   "note": "The layout is defined on the type, independent of the template."
  },
  {
   "property": "C364",
   "status": "partial",
   "theorems": [
    "Verif.MemSpace.strobeSpec_violated",
    "Verif.MemSpace.strobe_never",
    "Verif.MemSpace.strobe_partial"
   ],
   "note": "Violated: the width is divided by the address unit twice, the mask of a 32b register is 0; on buses with an address unit of 8b it is wrong for each register. Partial: address unit of 1b."
  },
  {
   "property": "C365",
   "status": "proved",
   "theorems": [
    "Verif.StructRw.reader_requests",
    "Verif.StructRw.writer_requests"
   ],
   "note": ""
  },
  {
   "property": "C366",
   "status": "partial",
   "theorems": [
    "Verif.StructRw.sizeSpec_reader_violated",
    "Verif.StructRw.sizeSpec_writer_violated",
    "Verif.StructRw.size_unaligned",
    "Verif.StructRw.size_reader_partial",
    "Verif.StructRw.size_writer_partial",
    "Verif.StructRw.elab_eq"
   ],
   "note": "Violated: a structure of one word can not be read (req has no len), one of more than 512 words can not be written, nor one which ends inside of the last byte of a word. Partial: other structures of whole bytes."
  },
  {
   "property": "C367",
   "status": "partial",
   "theorems": [
    "Verif.StructRw.ackSpec_violated",
    "Verif.StructRw.write_ack_partial",
    "Verif.StructRw.write_ack_bound"
   ],
   "note": "Violated: skipWhen is inverted, the acknowledge of the first frame is skipped and the others are propagated; a structure of one frame has no writeAck. Partial: n-1 acknowledges for n frames, i.e. right for two frames."
  },
  {
   "property": "C368",
   "status": "partial",
   "theorems": [
    "Verif.StructRw.idleSpec_violated",
    "Verif.StructRw.pending_limit_partial"
   ],
   "note": "Violated: WRITE_ACK only removes the input buffer, a second address is accepted while the first is pending. Partial: bound of pending requests."
  },
  {
   "property": "C369",
   "status": "partial",
   "theorems": [
    "Verif.MemSpace.itemSpec_violated",
    "Verif.MemSpace.item_spoiled",
    "Verif.MemSpace.item_partial"
   ],
   "note": "Violated: index -1 is accepted, its address is in front of the array and it is stored in the cache as the last item. Partial: indexes which are not negative."
  },
  {
   "property": "C37",
   "status": "proved",
   "theorems": [
    "Verif.Flip.flipReg_sides_differ",
    "Verif.Flip.flipReg_read_last_write",
    "Verif.Flip.flipReg_read_reset",
    "Verif.Flip.flipCntr_count_since_write",
    "Verif.Flip.flipCntr_total"
   ],
   "note": "Every history."
  },
  {
   "property": "C370",
   "status": "partial",
   "theorems": [
    "Verif.AxiTester.cmdSpec_violated",
    "Verif.AxiTester.commands_partial",
    "Verif.AxiTester.one_transfer"
   ],
   "note": "Violated: status is still 1 in the cycle after the write of a command, a command which relies on it is lost. Partial: holds if the status of that cycle is not used."
  },
  {
   "property": "C371",
   "status": "partial",
   "theorems": [
    "Verif.AxiTester.resultSpec_violated",
    "Verif.AxiTester.result_truncated",
    "Verif.AxiTester.bresp_never",
    "Verif.AxiTester.result_partial"
   ],
   "note": "Violated: b_resp is never loaded; data wider than the control bus are cut. Partial: registers of the read channel and b_id for data which fit."
  },
  {
   "property": "C372",
   "status": "partial",
   "theorems": [
    "Verif.AxiTester.holdSpec_violated",
    "Verif.AxiTester.hold_partial"
   ],
   "note": "Violated: a write of a register changes an offered item. Partial: valid is always kept, and the content if its registers are not written."
  },
  {
   "property": "C373",
   "status": "partial",
   "theorems": [
    "Verif.SegArr.roundTrip_violated",
    "Verif.SegArr.round_trip_partial",
    "Verif.SegArr.write_other"
   ],
   "note": "Violated: the value is always split to bytes, elements of 16b keep only their lower byte. Partial: elements of 8b; other items are kept for all widths."
  },
  {
   "property": "C374",
   "status": "partial",
   "theorems": [
    "Verif.SegArr.lenSpec_violated",
    "Verif.SegArr.len_partial",
    "Verif.SegArr.len_inside"
   ],
   "note": "Violated: without words_per_item len divides by None. Partial: with words_per_item."
  },
  {
   "property": "C375",
   "status": "partial",
   "theorems": [
    "Verif.MatrixCfg.rights_violated",
    "Verif.MatrixCfg.rights_partial",
    "Verif.MatrixCfg.build_routes"
   ],
   "note": "Violated: the type of the access right is ignored inside of a sub interconnect, a master which can only write a slave can read it. Partial: all allowed transactions are routed; nothing else if the rights of the group are uniform."
  },
  {
   "property": "C376",
   "status": "partial",
   "theorems": [
    "Verif.MatrixCfg.route_violated",
    "Verif.MatrixCfg.route_partial"
   ],
   "note": "Violated: parameters are built in the iteration order of sets, ports are connected in the sorted order; the set {1, 8} is iterated as 8, 1 and the two slaves are swapped. Partial: holds for up to 8 masters and 8 slaves."
  },
  {
   "property": "C377",
   "status": "partial",
   "theorems": [
    "Verif.MatrixCfg.buildable_violated",
    "Verif.MatrixCfg.buildable_partial"
   ],
   "note": "Violated: a master which only reads fails on an assertion. Partial: can be built iff each master has a right to read and a right to write."
  },
  {
   "property": "C378",
   "status": "proved",
   "theorems": [
    "Verif.UsbBundle.rom_lookup"
   ],
   "note": "Bytes of a descriptor are its reinterpretation as a list of bytes."
  },
  {
   "property": "C379",
   "status": "proved",
   "theorems": [
    "Verif.UsbBundle.descr_bytes"
   ],
   "note": "For any predicate which selects the type."
  },
  {
   "property": "C38",
   "status": "partial",
   "theorems": [
    "Verif.Crc.crc_matrix_eq_serial_partial",
    "Verif.Crc.crc_matrix_eq_serial_lsb1",
    "Verif.Crc.crc_matrix_ignores_bit0",
    "Verif.Crc.crc_comb_word",
    "Verif.Crc.crc_comb_word_refout_partial",
    "Verif.Crc.crc_is_remainder",
    "Verif.Crc.toPoly_injective"
   ],
   "note": "holds for every polynomial with the term 1; violated otherwise since bit 0 of POLY is ignored (crc_matrix_ignores_bit0)"
  },
  {
   "property": "C380",
   "status": "partial",
   "theorems": [
    "Verif.UsbBundle.meta_violated",
    "Verif.UsbBundle.meta_partial"
   ],
   "note": "Violated: the synchronisation type is used instead of the transfer type, a bulk endpoint is marked as control. Partial: presence, packet size, buffer size; transfer types if the two fields are equal."
  },
  {
   "property": "C381",
   "status": "partial",
   "theorems": [
    "Verif.UsbBundle.string_violated",
    "Verif.UsbBundle.string_partial"
   ],
   "note": "Violated: the encoder adds the byte order mark. Partial: the host gets U+FEFF and the string, bLength is right."
  },
  {
   "property": "C382",
   "status": "proved",
   "theorems": [
    "Verif.TypeSep.sep_complete",
    "Verif.TypeSep.sep_marks",
    "Verif.TypeSep.sep_names"
   ],
   "note": "Marks of pieces for queries which do not select structs (separate_streams)."
  },
  {
   "property": "C383",
   "status": "proved",
   "theorems": [
    "Verif.SigBuilder.and_or_optional"
   ],
   "note": "Signals by identity, values by an environment."
  },
  {
   "property": "C384",
   "status": "partial",
   "theorems": [
    "Verif.SigBuilder.mask_violated",
    "Verif.SigBuilder.mask_wrong",
    "Verif.SigBuilder.mask_partial"
   ],
   "note": "Violated: missing b raises an exception; b masked by itself gives b. Partial: the other cases."
  },
  {
   "property": "C385",
   "status": "proved",
   "theorems": [
    "Verif.UsbXfer.bulk_round_trip"
   ],
   "note": "Packets without errors."
  },
  {
   "property": "C386",
   "status": "partial",
   "theorems": [
    "Verif.UsbXfer.device_violated",
    "Verif.UsbXfer.device_partial"
   ],
   "note": "Violated: the host expects packets of 64 bytes until the descriptor is known, the descriptor in packets of 8 or 16 bytes is cut after the first packet. Partial: downloaded iff the packet size is more than 18 (32, 64)."
  },
  {
   "property": "C387",
   "status": "proved",
   "theorems": [
    "Verif.UsbXfer.parse_iff"
   ],
   "note": "The specification is by the nearest preceding interface or configuration descriptor."
  },
  {
   "property": "C388",
   "status": "partial",
   "theorems": [
    "Verif.UsbXfer.enum_violated",
    "Verif.UsbXfer.enum_partial"
   ],
   "note": "Violated: a string is downloaded with 255 bytes and the device continues with the next descriptors. Partial: exact result for strings with at most 255 bytes together; equal to the descriptors of the device iff there is one string."
  },
  {
   "property": "C389",
   "status": "proved",
   "theorems": [
    "Verif.PhyAgents.utmi_rx"
   ],
   "note": "Without reset. An empty packet fails the assertion of the monitor."
  },
  {
   "property": "C39",
   "status": "proved",
   "theorems": [
    "Verif.Crc.crc_words",
    "Verif.Crc.crc_output",
    "Verif.Crc.crc_output_latency0",
    "Verif.Crc.crc_linear"
   ],
   "note": "for polynomials with the term 1"
  },
  {
   "property": "C390",
   "status": "proved",
   "theorems": [
    "Verif.PhyAgents.utmi_tx",
    "Verif.PhyAgents.utmi_tx_driver"
   ],
   "note": "the agents together, and the driver with any pattern of ready"
  },
  {
   "property": "C391",
   "status": "partial",
   "theorems": [
    "Verif.PhyAgents.rmii_violated",
    "Verif.PhyAgents.rmii_partial"
   ],
   "note": "Violated: two appended frames are sent without a gap and received as one frame. Partial: frames with a gap are received unchanged, frames appended together are received as their concatenation."
  },
  {
   "property": "C392",
   "status": "proved",
   "theorems": [
    "Verif.Dsp48.alu_table",
    "Verif.Dsp48.alu_carry"
   ],
   "note": "all items of the table"
  },
  {
   "property": "C393",
   "status": "partial",
   "theorems": [
    "Verif.Dsp48.regB_violated",
    "Verif.Dsp48.reg_partial"
   ],
   "note": "for BREG = 2 the second register of B is loaded with an invalid value (condition BREG == 1 is tested twice, dsp48e1.py:447-449); proved for every AREG and for BREG 0, 1"
  },
  {
   "property": "C394",
   "status": "proved",
   "theorems": [
    "Verif.Dsp48Add.add_stream"
   ],
   "note": "uses the ALU model of C392"
  },
  {
   "property": "C395",
   "status": "proved",
   "theorems": [
    "Verif.Dsp48Add.add_latency"
   ],
   "note": ""
  },
  {
   "property": "C396",
   "status": "proved",
   "theorems": [
    "Verif.MdioAg.frames"
   ],
   "note": ""
  },
  {
   "property": "C397",
   "status": "partial",
   "theorems": [
    "Verif.MdioAg.preamble_violated",
    "Verif.MdioAg.preamble_partial"
   ],
   "note": "the agent counts 32 bits of any value as the preamble (intf.py:163-167), a frame after 32 zeros is stored; proved: no register is changed before 64 bits were received"
  },
  {
   "property": "C398",
   "status": "proved",
   "theorems": [
    "Verif.DpSimRam.read_answer"
   ],
   "note": ""
  },
  {
   "property": "C399",
   "status": "proved",
   "theorems": [
    "Verif.DpSimRam.writes",
    "Verif.DpSimRam.writes_done"
   ],
   "note": ""
  },
  {
   "property": "C40",
   "status": "partial",
   "theorems": [
    "Verif.Crc.crc_xorout_violated",
    "Verif.Crc.crc_xorout_partial",
    "Verif.Crc.crc_comb_xorout_violated"
   ],
   "note": "violated: Crc xors the bit-reversed XOROUT; holds for palindromic XOROUT"
  },
  {
   "property": "C400",
   "status": "proved",
   "theorems": [
    "Verif.Mi32Ram.sequential",
    "Verif.Mi32Ram.accepted"
   ],
   "note": ""
  },
  {
   "property": "C401",
   "status": "partial",
   "theorems": [
    "Verif.Mi32Ram.transport_violated",
    "Verif.Mi32Ram.transport_partial",
    "Verif.Mi32Ram.transport_never"
   ],
   "note": "set_valid is borrowed from AvalonMmAddrAgent (avalon/mm.py:174-181) which raises ValueError for READ_WRITE although set_data, get_data support it; reads and writes proved"
  },
  {
   "property": "C402",
   "status": "proved",
   "theorems": [
    "Verif.SpiAg.master_to_slave"
   ],
   "note": ""
  },
  {
   "property": "C403",
   "status": "partial",
   "theorems": [
    "Verif.SpiAg.slaveToMaster_violated",
    "Verif.SpiAg.slave_to_master_partial"
   ],
   "note": "monitorTx writes miso after the same falling edge on which driverRx reads it (intf.py:117-130), so everything is received one bit late; proved: the received words are the bit stream of the slave late by one bit"
  },
  {
   "property": "C404",
   "status": "proved",
   "theorems": [
    "Verif.UsbIp.urb_stream"
   ],
   "note": "exceptions of transfers of endpoints other than 0 close the connection and are excluded; commands are encoded and replies decoded by independent functions"
  },
  {
   "property": "C405",
   "status": "partial",
   "theorems": [
    "Verif.UsbIp.length_violated",
    "Verif.UsbIp.length_partial"
   ],
   "note": "violated: the reply of an endpoint other than 0 always reports 0; proved for endpoint 0"
  },
  {
   "property": "C406",
   "status": "partial",
   "theorems": [
    "Verif.UsbIp.read_violated",
    "Verif.UsbIp.read_partial"
   ],
   "note": "violated: the requested length is stored but not used, the whole packet is sent; proved if the packet of the device is not longer than the request"
  },
  {
   "property": "C407",
   "status": "partial",
   "theorems": [
    "Verif.UsbIpOp.out_violated",
    "Verif.UsbIpOp.out_partial",
    "Verif.UsbIpOp.out_lost"
   ],
   "note": "violated: endp_next_pid toggles once per transfer, not once per packet; the packet after a transfer with an even number of packets is dropped by the device; proved for odd numbers of packets"
  },
  {
   "property": "C408",
   "status": "proved",
   "theorems": [
    "Verif.UsbIpOp.in_toggle"
   ],
   "note": "the device toggles the PID after each acknowledged packet"
  },
  {
   "property": "C409",
   "status": "partial",
   "theorems": [
    "Verif.UsbIpOp.list_violated",
    "Verif.UsbIpOp.list_partial"
   ],
   "note": "violated: a record is sent for each interface descriptor of the device (alternate settings, other configurations) but bNumInterfaces is from the first configuration; proved if the numbers are equal"
  },
  {
   "property": "C41",
   "status": "proved",
   "theorems": [
    "Verif.Gray.gray_step",
    "Verif.Gray.gray_injective",
    "Verif.Gray.gray_width",
    "Verif.Gray.gray_surjective",
    "Verif.Gray.grayCntr_one_bit",
    "Verif.Gray.grayCntr_period"
   ],
   "note": ""
  },
  {
   "property": "C410",
   "status": "partial",
   "theorems": [
    "Verif.UsbIpOp.import_violated",
    "Verif.UsbIpOp.import_prefix",
    "Verif.UsbIpOp.import_partial"
   ],
   "note": "violated: a text which does not match the regular expression raises UnboundLocalError and closes the connection, a text with trailing characters attaches the device; proved for all texts of the form bus-device"
  },
  {
   "property": "C411",
   "status": "proved",
   "theorems": [
    "Verif.AxisPrio.frames"
   ],
   "note": "uses the proved property of the combinational HsJoinPrioritized"
  },
  {
   "property": "C412",
   "status": "partial",
   "theorems": [
    "Verif.AxisPrio.stable_violated",
    "Verif.AxisPrio.stable_partial"
   ],
   "note": "violated: the first word of a frame is replaced if an input with higher priority gets data while the word waits for ready; proved for all other words of a frame"
  },
  {
   "property": "C413",
   "status": "proved",
   "theorems": [
    "Verif.UsbIpRec.filter_exact",
    "Verif.UsbIpRec.pieces_encode"
   ],
   "note": "pieces_encode: the recorded reads are the message of the client"
  },
  {
   "property": "C414",
   "status": "partial",
   "theorems": [
    "Verif.UsbIpRec.cut_violated",
    "Verif.UsbIpRec.cut_empty",
    "Verif.UsbIpRec.cut_doc",
    "Verif.UsbIpRec.cut_partial"
   ],
   "note": "violated: the assertion is commented out, times 5, 10 become 5, 0 for the segment (0, 10); an empty list of segments raises StopIteration; the example of the documentation (0, 10, 11 to 0, 1, 2) gives 0, 0, 1; proved with at least one segment and no item strictly inside of a segment"
  },
  {
   "property": "C415",
   "status": "partial",
   "theorems": [
    "Verif.BiDirAg.transport_violated",
    "Verif.BiDirAg.address_lost",
    "Verif.BiDirAg.transport_partial"
   ],
   "note": "violated: the driver of HwIOAddrInOutDataInRdVld reads the address from the signal data; proved for the other agents and for everything but that address"
  },
  {
   "property": "C416",
   "status": "proved",
   "theorems": [
    "Verif.CacheUtil.write_bytes"
   ],
   "note": "apply_set_and_clear is trusted to be (v & ~c) | s"
  },
  {
   "property": "C417",
   "status": "partial",
   "theorems": [
    "Verif.CacheUtil.extend_violated",
    "Verif.CacheUtil.extend_only8",
    "Verif.CacheUtil.extend_partial"
   ],
   "note": "violated: the width is divided by 8 twice, all widths other than 8 end with a negative width (extend_only8)"
  },
  {
   "property": "C418",
   "status": "partial",
   "theorems": [
    "Verif.CacheUtil.camRead_violated",
    "Verif.CacheUtil.camRead_partial"
   ],
   "note": "violated: the address has log2ceil(ITEMS - 1) bits, for ITEMS = 2**k + 1 the last item can not be addressed; proved for all other numbers"
  },
  {
   "property": "C419",
   "status": "proved",
   "theorems": [
    "Verif.CacheUtil.addr_round_trip",
    "Verif.CacheUtil.addr_lines"
   ],
   "note": ""
  },
  {
   "property": "C42",
   "status": "proved",
   "theorems": [
    "Verif.Bcd.bin_to_bcd_correct",
    "Verif.Bcd.toBcd_nibble",
    "Verif.Bcd.bin_to_bcd_latency",
    "Verif.Bcd.decDigits_ok"
   ],
   "note": ""
  },
  {
   "property": "C420",
   "status": "partial",
   "theorems": [
    "Verif.TupAg.transport_violated",
    "Verif.TupAg.all_bad",
    "Verif.TupAg.transport_partial"
   ],
   "note": "violated by each of these (all_bad): FifoDrop writer (members in another order), HwIOInsert (the function hash instead of the value), HwIOCuckooInsertRes without data (unassigned variable), HwIOLookupKey with id (wrong name of the signal), HwIOLookupResult (StopIteration in set_data); proved for 25 other agents and for the rest of the members"
  },
  {
   "property": "C421",
   "status": "proved",
   "theorems": [
    "Verif.EthMacTx.fcs_stream",
    "Verif.EthMacTx.fcs_offered"
   ],
   "note": "the deparser is the environment (it takes the checksum of a frame before data of the next)"
  },
  {
   "property": "C422",
   "status": "proved",
   "theorems": [
    "Verif.UsbPkt.utmi_round_trip",
    "Verif.UsbPkt.ulpi_round_trip",
    "Verif.UsbPkt.utmi_injective",
    "Verif.UsbPkt.utmi_pid_flip"
   ],
   "note": "Uses the CRC model of UsbCrc.lean. PING and SPLIT tokens are not accepted by parse_packet (NotImplementedError) and are not packets of the claim."
  },
  {
   "property": "C423",
   "status": "partial",
   "theorems": [
    "Verif.UsbPkt.only_violated",
    "Verif.UsbPkt.utmi_only_partial",
    "Verif.UsbPkt.ulpi_only_partial"
   ],
   "note": "Violated for handshakes (witness: ACK followed by one byte); proved for everything else and for handshakes of one byte."
  },
  {
   "property": "C424",
   "status": "proved",
   "theorems": [
    "Verif.UsbIpReplay.record_follows",
    "Verif.UsbIpReplay.replay_same",
    "Verif.UsbIpReplay.debug_never"
   ],
   "note": "debug_never: with debug=True every replay ends with an exception, because the end of the recording is an IndexError and not an IncompleteReadError."
  },
  {
   "property": "C425",
   "status": "partial",
   "theorems": [
    "Verif.UsbIpReplay.detects_violated",
    "Verif.UsbIpReplay.detects_partial"
   ],
   "note": "Violated for the last item of the recording; proved for all the items before it."
  },
  {
   "property": "C426",
   "status": "partial",
   "theorems": [
    "Verif.OooHash.linearizable_partial",
    "Verif.OooHash.lin_14",
    "Verif.OooHash.default_violated",
    "Verif.OooHash.latest_eq"
   ],
   "note": "Proved for a history of at least p + 2 items (lin_14 is the configuration of counterHashTable_test.py); negation for the default configuration. With write_cancel."
  },
  {
   "property": "C427",
   "status": "partial",
   "theorems": [
    "Verif.OooHash.writes_partial",
    "Verif.OooOp.inv_stepC"
   ],
   "note": "Proved for a history of at least p + 2 items; with a shorter one C426 is violated."
  },
  {
   "property": "C428",
   "status": "partial",
   "theorems": [
    "Verif.UlpiAg.rxCmd_violated",
    "Verif.UlpiAg.rxCmd_partial"
   ],
   "note": "Negation: RxActive is not reported. The state of Vbus is right."
  },
  {
   "property": "C429",
   "status": "partial",
   "theorems": [
    "Verif.UlpiAg.transport_partial",
    "Verif.UlpiAg.delivered",
    "Verif.UlpiAg.transport_violated"
   ],
   "note": "Proved with both agents enabled all the time (safety and delivery); negation with the agent of PHY disabled for one clock cycle."
  },
  {
   "property": "C43",
   "status": "proved",
   "theorems": [
    "Verif.Bcd.bcd_to_bin_correct",
    "Verif.Bcd.bcd_to_bin_latency"
   ],
   "note": ""
  },
  {
   "property": "C430",
   "status": "partial",
   "theorems": [
    "Verif.CacheRead.order_violated",
    "Verif.CacheRead.order_partial",
    "Verif.CacheRead.order_noMix"
   ],
   "note": "the full statement is false (hit overtakes a miss with the same id); order within hits and within misses proved, full order if the master does not mix"
  },
  {
   "property": "C431",
   "status": "partial",
   "theorems": [
    "Verif.CacheRead.lru_lost",
    "Verif.CacheRead.lru_repeated",
    "Verif.CacheRead.lru_violated",
    "Verif.CacheRead.lru_partial",
    "Verif.CacheRead.lru_sound"
   ],
   "note": "the full statement is false (lost and repeated increments); proved for hits for which the data array and the LRU array are ready"
  },
  {
   "property": "C432",
   "status": "partial",
   "theorems": [
    "Verif.UsbVcpRom.line_violated",
    "Verif.UsbVcpRom.line_wrong",
    "Verif.UsbVcpRom.line_response",
    "Verif.UsbVcpRom.line_partial"
   ],
   "note": "the full statement is false for each real device (line_wrong); the exact response is proved"
  },
  {
   "property": "C433",
   "status": "partial",
   "theorems": [
    "Verif.UsbVcpRom.str_violated",
    "Verif.UsbVcpRom.str_partial"
   ],
   "note": "the full statement is false for a string over the address 255; proved for a ROM of at most 256 bytes"
  },
  {
   "property": "C434",
   "status": "partial",
   "theorems": [
    "Verif.Segment7.seg_violated",
    "Verif.Segment7.seg_partial",
    "Verif.Segment7.seg_inj"
   ],
   "note": "the documented order of bits is false; proved for the reversed order"
  },
  {
   "property": "C435",
   "status": "partial",
   "theorems": [
    "Verif.AddrProbe.walk_violated",
    "Verif.AddrProbe.walk_remap",
    "Verif.AddrProbe.walk_plus",
    "Verif.AddrProbe.walk_partial"
   ],
   "note": "Violated: behind a BusStaticRemap the offset is translated in the direction of the access instead of back, and adders on the address are followed without a change of the offset. Proved for trees without such adders whose remaps are their own inverse at the endpoints."
  },
  {
   "property": "C436",
   "status": "partial",
   "theorems": [
    "Verif.AddrProbe.discover_violated",
    "Verif.AddrProbe.discover_lost",
    "Verif.AddrProbe.discover_one",
    "Verif.AddrProbe.discover_partial"
   ],
   "note": "Violated: the offset found by the walk is not used, so the registers of an endpoint in a window which begins at 0x1000 are discovered at 0. Proved if the endpoint is at address 0 of every interconnect; proved that success means exactly one endpoint."
  },
  {
   "property": "C437",
   "status": "proved",
   "theorems": [
    "Verif.CompName.find_total",
    "Verif.CompName.find_fresh",
    "Verif.CompName.add_distinct"
   ],
   "note": "The increment of the counter after the search is unreachable; freshness comes from the check of the attributes alone."
  },
  {
   "property": "C438",
   "status": "partial",
   "theorems": [
    "Verif.UsbVer.ver_violated",
    "Verif.UsbVer.ver_accepts",
    "Verif.UsbVer.ver_wrong",
    "Verif.UsbVer.ver_partial",
    "Verif.UsbVer.ver_inj",
    "Verif.UsbVer.ver_refused"
   ],
   "note": "Violated: 2.x is accepted as 0x680, and numbers with digits above 9 share a string (0x1b10 and 0xb110). Proved for decimal digits; strings of another shape are refused."
  },
  {
   "property": "C439",
   "status": "partial",
   "theorems": [
    "Verif.UsbVer.list_violated",
    "Verif.UsbVer.list_wrong",
    "Verif.UsbVer.list_partial"
   ],
   "note": "Violated: KeyError for 3.1, 3.2, 4.0 and for every version with a non-zero last digit; 3.0 is listed with the number of high speed. Proved: exactly 1.0, 1.1, 2.0 and 3.0 are listed among the versions of two digits."
  },
  {
   "property": "C44",
   "status": "proved",
   "theorems": [
    "Verif.OneHot.oneHotToBin_lowest",
    "Verif.OneHot.binToOneHot_exact",
    "Verif.OneHot.oneHot_roundtrip",
    "Verif.OneHot.oneHot_roundtrip'"
   ],
   "note": "Every width and value."
  },
  {
   "property": "C440",
   "status": "proved",
   "theorems": [
    "Verif.UsbDescr.device_iff",
    "Verif.UsbDescr.qualifier_iff",
    "Verif.UsbDescr.config_iff",
    "Verif.UsbDescr.interface_iff",
    "Verif.UsbDescr.endpoint_iff",
    "Verif.UsbDescr.string0_iff",
    "Verif.UsbDescr.hid_iff",
    "Verif.UsbDescr.funHeader_iff",
    "Verif.UsbDescr.funCall_iff",
    "Verif.UsbDescr.funAcm_iff",
    "Verif.UsbDescr.union_iff",
    "Verif.UsbDescr.lineCoding_iff",
    "Verif.UsbDescr.line_default",
    "Verif.UsbDescr.descr_header"
   ],
   "note": "String descriptors are in C432/C433 and UsbBundle."
  },
  {
   "property": "C441",
   "status": "partial",
   "theorems": [
    "Verif.UsbDescr.size_violated",
    "Verif.UsbDescr.size_wrong",
    "Verif.UsbDescr.size_partial"
   ],
   "note": "Violated: 128 is accepted for endpoint 0, and any size from 64 (for example 100) for the bulk endpoints because only min(64, size) is checked. Proved: endpoint 0 of the virtual COM port has a valid size; sizes below 64 are valid."
  },
  {
   "property": "C442",
   "status": "partial",
   "theorems": [
    "Verif.UsbDescr.power_violated",
    "Verif.UsbDescr.power_partial"
   ],
   "note": "Violated for odd currents, which are rounded down. Proved: exact for even ones, 1 mA less for odd ones, refused from 512 mA."
  },
  {
   "property": "C443",
   "status": "partial",
   "theorems": [
    "Verif.UsbDescr.req_violated",
    "Verif.UsbDescr.req_wrong",
    "Verif.UsbDescr.req_partial"
   ],
   "note": "Violated for indexes above 255, which are not refused and change the type. Proved for indexes below 256."
  },
  {
   "property": "C444",
   "status": "proved",
   "theorems": [
    "Verif.UsbDescr.vcp_consistent",
    "Verif.UsbDescr.vcp_strings"
   ],
   "note": ""
  },
  {
   "property": "C445",
   "status": "partial",
   "theorems": [
    "Verif.ForLoop.loop_wrong",
    "Verif.ForLoop.loop_violated",
    "Verif.ForLoop.loop_partial",
    "Verif.ForLoop.loop_one",
    "Verif.ForLoop.loop_ends"
   ],
   "note": "The full statement is false: the port index does reach 0, but body.vld is 0 in that clock, so the body gets no transaction with index 0 (loop_violated); with ITERATIONS = 1 the body is never executed (loop_one), and the loop runs once after reset without a start. Proved: for ITERATIONS >= 2 the order from ITERATIONS - 1 to 1, one loop per start, end by a break (loop_partial), and termination (loop_ends)."
  },
  {
   "property": "C446",
   "status": "proved",
   "theorems": [
    "Verif.ForLoop.fsm_spec",
    "Verif.ForLoop.hard_recovers"
   ],
   "note": "FsmBuilder of hwt is part of the trusted base: first condition wins, the state is held otherwise."
  },
  {
   "property": "C447",
   "status": "proved",
   "theorems": [
    "Verif.ForLoop.two_mod",
    "Verif.ForLoop.two_small",
    "Verif.ForLoop.two_wrap",
    "Verif.ForLoop.two_flags"
   ],
   "note": "two_wrap shows the effect of the wrap of one counter."
  },
  {
   "property": "C448",
   "status": "proved",
   "theorems": [
    "Verif.AxiSize.size_max",
    "Verif.AxiSize.size_pow",
    "Verif.AxiSize.size_exact",
    "Verif.AxiSize.size_fits"
   ],
   "note": ""
  },
  {
   "property": "C449",
   "status": "partial",
   "theorems": [
    "Verif.AxiSize.width_violated",
    "Verif.AxiSize.width_partial"
   ],
   "note": "False for words which are not a power of two of bytes, e.g. 3 words of 24 bits (width_violated). Proved for every power of two of bytes and every maxLen (width_partial)."
  },
  {
   "property": "C45",
   "status": "proved",
   "theorems": [
    "Verif.CountLeading.countLeading_exact",
    "Verif.CountLeading.leadingCount_unique",
    "Verif.CountLeading.countLeading_fits"
   ],
   "note": "Widths 2^(k+1); DATA_WIDTH=1 is rejected by an assertion of the code."
  },
  {
   "property": "C450",
   "status": "partial",
   "theorems": [
    "Verif.AxiSize.create_violated",
    "Verif.AxiSize.create_partial",
    "Verif.AxiSize.create_refused",
    "Verif.AxiSize.create_defaults"
   ],
   "note": "False for ID_WIDTH = 0: the interface has no id signal but the agents read it (create_violated). Proved for every ID_WIDTH > 0."
  },
  {
   "property": "C451",
   "status": "partial",
   "theorems": [
    "Verif.AxiBld.cdc_violated",
    "Verif.AxiBld.cdc_partial",
    "Verif.AxiBld.cdc_accepted"
   ],
   "note": "False for different clocks: AxiBuffCdc gives M_FREQ to clk and S_FREQ to m_clk, so the frequencies are swapped (cdc_violated); right exactly if both are the same (cdc_partial). The accepted depths are proved (cdc_accepted)."
  },
  {
   "property": "C452",
   "status": "proved",
   "theorems": [
    "Verif.AxiBld.burst_exact",
    "Verif.AxiBld.burst_needed"
   ],
   "note": ""
  },
  {
   "property": "C453",
   "status": "partial",
   "theorems": [
    "Verif.AxiBld.to_violated",
    "Verif.AxiBld.to_partial",
    "Verif.AxiBld.to_other"
   ],
   "note": "False: Axi4 asked to become Axi3Lite becomes Axi4Lite, and Axi4Lite is not converted to Axi4 with the default id_width = 0 because the bridge drives an id signal which does not exist (to_violated). to_partial lists exactly the conversions which work, to_other those which silently give another class."
  },
  {
   "property": "C454",
   "status": "proved",
   "theorems": [
    "Verif.AxiBld.resize_ok",
    "Verif.AxiBld.resize_twice"
   ],
   "note": "The resizer is assumed to have the widths it is configured to."
  },
  {
   "property": "C455",
   "status": "partial",
   "theorems": [
    "Verif.CrcTab.check_epc",
    "Verif.CrcTab.check_violated",
    "Verif.CrcTab.check_epc_init",
    "Verif.CrcTab.check_partial"
   ],
   "note": "False for CRC_5_EPC: INIT = 9 of the catalogue is missing, the checksum is 6 and not 0 (check_epc, check_epc_init). Proved for all others."
  },
  {
   "property": "C456",
   "status": "partial",
   "theorems": [
    "Verif.CrcTab.res_const",
    "Verif.CrcTab.res_two",
    "Verif.CrcTab.res_violated",
    "Verif.CrcTab.res_partial"
   ],
   "note": "For every configuration the register is the same after all messages (res_const). RESIDUE of CRC_5_USB and CRC_32 is that register without the reflection, contrary to the others (res_two, res_violated); all others are right (res_partial)."
  },
  {
   "property": "C457",
   "status": "proved",
   "theorems": [
    "Verif.CrcTab.burst_found",
    "Verif.CrcTab.burst_crc",
    "Verif.CrcTab.table_fits"
   ],
   "note": ""
  },
  {
   "property": "C458",
   "status": "proved",
   "theorems": [
    "Verif.AxisSof.sof_frames",
    "Verif.AxisSof.is_frames",
    "Verif.AxisSof.sof_idle"
   ],
   "note": ""
  },
  {
   "property": "C459",
   "status": "partial",
   "theorems": [
    "Verif.NetHdr.bits_wrong",
    "Verif.NetHdr.bits_flags",
    "Verif.NetHdr.bits_class",
    "Verif.NetHdr.bits_violated",
    "Verif.NetHdr.bits_partial",
    "Verif.NetHdr.bits_swapped",
    "Verif.NetHdr.flag_consts"
   ],
   "note": "Violated by the code: IPv4 flags and fragmentOffset (right only if bytes 6 and 7 were exchanged), IPv6 version, trafficClass and flowLabel, TCP doff and reserved1, all TCP flags, and IP_FLAGS.MORE_FRAGMENTS, which is the reserved bit. All other fields are proved right."
  },
  {
   "property": "C46",
   "status": "proved",
   "theorems": [
    "Verif.Bitonic.bitonicSorter_perm",
    "Verif.Bitonic.bitonicSorter_sorted",
    "Verif.Bitonic.bitonicSorter_order_irrelevant"
   ],
   "note": "Every k and every linearly ordered item type."
  },
  {
   "property": "C460",
   "status": "proved",
   "theorems": [
    "Verif.NetHdr.bytes_match",
    "Verif.NetHdr.bytes_sizes"
   ],
   "note": "The layout of HStruct (fields from the lowest bit, no padding) is trusted."
  },
  {
   "property": "C461",
   "status": "partial",
   "theorems": [
    "Verif.NetHdr.mac_roundtrip",
    "Verif.NetHdr.mac_text",
    "Verif.NetHdr.mac_inj",
    "Verif.NetHdr.mac_violated",
    "Verif.NetHdr.mac_partial"
   ],
   "note": "The round trip and the form of the text are proved for all addresses. Violated by the code: a text with another number of parts is accepted; proved instead: one byte for each part. Signs, spaces, underscores and prefixes which int(x, 16) accepts are not modelled."
  },
  {
   "property": "C462",
   "status": "partial",
   "theorems": [
    "Verif.NetHdr.mbuf_partial",
    "Verif.NetHdr.mbuf_violated"
   ],
   "note": "All fields are right. Violated by the code: the padding of 28 bytes at the end is missing, the struct has 100 bytes."
  },
  {
   "property": "C463",
   "status": "partial",
   "theorems": [
    "Verif.UlpiCmd.cmd_pid",
    "Verif.UlpiCmd.cmd_is",
    "Verif.UlpiCmd.cmd_reg",
    "Verif.UlpiCmd.cmd_disjoint",
    "Verif.UlpiCmd.cmd_ext",
    "Verif.UlpiCmd.cmd_violated",
    "Verif.UlpiCmd.cmd_partial"
   ],
   "note": "Violated by the code: NOPID is recognised as a packet with the PID 0. All other parts are proved."
  },
  {
   "property": "C464",
   "status": "partial",
   "theorems": [
    "Verif.UlpiCmd.reg_spec",
    "Verif.UlpiCmd.reg_nodup",
    "Verif.UlpiCmd.reg_set",
    "Verif.UlpiCmd.reg_clr",
    "Verif.UlpiCmd.reg_violated",
    "Verif.UlpiCmd.reg_partial"
   ],
   "note": "Violated by the code: set_of is a class method without a parameter for the class and raises for any arguments; clr_of is an ordinary method and works on an instance only, where it is proved right. Addresses are proved."
  },
  {
   "property": "C465",
   "status": "proved",
   "theorems": [
    "Verif.UlpiCmd.field_roundtrip",
    "Verif.UlpiCmd.field_spec",
    "Verif.UlpiCmd.field_reset"
   ],
   "note": "The layout of HStruct (fields from the lowest bit, no padding) is trusted."
  },
  {
   "property": "C466",
   "status": "partial",
   "theorems": [
    "Verif.UlpiCmd.xgmii_detect",
    "Verif.UlpiCmd.xgmii_one",
    "Verif.UlpiCmd.xgmii_codes",
    "Verif.UlpiCmd.align_violated",
    "Verif.UlpiCmd.align_partial"
   ],
   "note": "Violated by the code: the alignment equal to the number of lanes is refused (so an interface with one lane can not exist) and numbers which do not divide it are accepted. Detection is proved."
  },
  {
   "property": "C467",
   "status": "proved",
   "theorems": [
    "Verif.ExReg.async_one",
    "Verif.ExReg.async_undef",
    "Verif.ExReg.async_reset",
    "Verif.ExReg.ddr_bits",
    "Verif.ExReg.ddr_pair",
    "Verif.ExReg.latch_spec"
   ],
   "note": "Processes are evaluated once for each event."
  },
  {
   "property": "C468",
   "status": "proved",
   "theorems": [
    "Verif.ExReg.dreg_delay"
   ],
   "note": "Synchronous reset of addClkRst."
  },
  {
   "property": "C469",
   "status": "partial",
   "theorems": [
    "Verif.ExReg.zero_violated",
    "Verif.ExReg.zero_partial"
   ],
   "note": "Violated by the code: only the lowest 8 bits are searched and the output is 7 if there is no zero among them. Proved for a zero among the lowest 8 bits."
  },
  {
   "property": "C47",
   "status": "proved",
   "theorems": [
    "Verif.Lfsr.lfsr_injective",
    "Verif.Lfsr.lfsr_bijective",
    "Verif.Lfsr.lfsr_periodic",
    "Verif.Lfsr.lfsr_never_zero",
    "Verif.Lfsr.lfsr_output_alive",
    "Verif.Lfsr.lfsr_no_top_tap_locks"
   ],
   "note": "Every width and polynomial with the top tap; without the top tap a lock-up witness."
  },
  {
   "property": "C470",
   "status": "partial",
   "theorems": [
    "Verif.Mmcm.sound_violated",
    "Verif.Mmcm.sound_partial",
    "Verif.Mmcm.sound_freq",
    "Verif.Mmcm.sound_out"
   ],
   "note": "Violated by the code: the shortest period is rounded down to whole ps, so an input up to 1066.1 MHz is accepted. Proved if no used input is faster than 1066 MHz. Numbers are fixed point, rounding of floats and types of boolean parameters are not modelled."
  },
  {
   "property": "C471",
   "status": "partial",
   "theorems": [
    "Verif.Mmcm.complete_violated",
    "Verif.Mmcm.complete_partial",
    "Verif.Mmcm.defaults_refused"
   ],
   "note": "Violated by the code: a configuration which uses the second input only is refused, so the check that one of them is not 0 never decides. Proved for all configurations with the first input used."
  },
  {
   "property": "C472",
   "status": "proved",
   "theorems": [
    "Verif.IoMon.to_monitor",
    "Verif.IoMon.leaves_nodup"
   ],
   "note": "Interfaces are trees with named children; a struct typed destination is C477."
  },
  {
   "property": "C473",
   "status": "proved",
   "theorems": [
    "Verif.IoMon.monitor_connects",
    "Verif.IoMon.monitor_id",
    "Verif.IoMon.monitor_full",
    "Verif.IoMon.leaves_nodup"
   ],
   "note": "For all trees with different names of children."
  },
  {
   "property": "C474",
   "status": "proved",
   "theorems": [
    "Verif.IoMon.from_monitor",
    "Verif.IoMon.leaves_nodup"
   ],
   "note": "_reinterpret_cast is taken to need the same width."
  },
  {
   "property": "C475",
   "status": "proved",
   "theorems": [
    "Verif.IoMon.ram_last",
    "Verif.IoMon.ram_init",
    "Verif.IoMon.address_bits"
   ],
   "note": "Two valued signals; addresses below the width."
  },
  {
   "property": "C476",
   "status": "proved",
   "theorems": [
    "Verif.IoMon.sync_read",
    "Verif.IoMon.sync_read_first"
   ],
   "note": "Step per rising edge."
  },
  {
   "property": "C477",
   "status": "proved",
   "theorems": [
    "Verif.IoMon.to_struct",
    "Verif.IoMon.struct_undriven",
    "Verif.IoMon.leaves_nodup"
   ],
   "note": "The members of the struct form a tree as an interface does."
  },
  {
   "property": "C478",
   "status": "proved",
   "theorems": [
    "Verif.MemMst.axi_write",
    "Verif.MemMst.axi_read"
   ],
   "note": "The listener of the hwt library is only given the numbers."
  },
  {
   "property": "C479",
   "status": "partial",
   "theorems": [
    "Verif.MemMst.atomic_partial",
    "Verif.MemMst.raises",
    "Verif.MemMst.atomic_violated"
   ],
   "note": "Holds for Mi32 and BRAM port. Violated for Avalon-MM: _read with onDone appends the request before it raises."
  },
  {
   "property": "C48",
   "status": "partial",
   "theorems": [
    "Verif.Axis.axis_en_violated",
    "Verif.Axis.axis_en_partial"
   ],
   "note": "violated: framePending is never set so en=0 stops inside of a frame; words pass unchanged exactly when en is set"
  },
  {
   "property": "C480",
   "status": "partial",
   "theorems": [
    "Verif.MemMst.faithful_partial",
    "Verif.MemMst.requests",
    "Verif.MemMst.faithful_violated"
   ],
   "note": "Holds for Mi32 and Avalon-MM. Violated for AXI-Lite (order of a read and a write is lost) and for the BRAM port (the mask is dropped)."
  },
  {
   "property": "C481",
   "status": "partial",
   "theorems": [
    "Verif.FifoCfg.usable_partial",
    "Verif.FifoCfg.small_rejected",
    "Verif.FifoCfg.usable_violated"
   ],
   "note": "Violated: EXPORT_SPACE without EXPORT_SIZE raises AttributeError (the type of self.size is read). Proved for all other combinations."
  },
  {
   "property": "C482",
   "status": "partial",
   "theorems": [
    "Verif.FifoCfg.fits_partial",
    "Verif.FifoCfg.long_violated"
   ],
   "note": "Violated: the assertion compares len(INIT_DATA) with itself; proved that accepted data fit exactly if they are not longer than DEPTH. What the hwt library does with a too long initial value of the memory is not modelled."
  },
  {
   "property": "C483",
   "status": "partial",
   "theorems": [
    "Verif.FifoCfg.async_partial",
    "Verif.FifoCfg.async_violated",
    "Verif.FifoCfg.async_init_violated"
   ],
   "note": "Violated: the exports always raise NotImplementedError of FifoAsync; INIT_DATA are ignored, with DEPTH words of them dataOut is valid after reset without a word."
  },
  {
   "property": "C484",
   "status": "partial",
   "theorems": [
    "Verif.AxiAg.propagates_partial",
    "Verif.AxiAg.run_enable",
    "Verif.AxiAg.propagates_violated"
   ],
   "note": "Violated: a repeated value is not propagated, so a channel disabled alone stays disabled after setEnable(True). Proved for changes of the flag and for histories without a channel set alone."
  },
  {
   "property": "C485",
   "status": "proved",
   "theorems": [
    "Verif.AxiAg.roles",
    "Verif.AxiAg.addr_channel"
   ],
   "note": "Agents of channels are of the hwt library."
  },
  {
   "property": "C486",
   "status": "proved",
   "theorems": [
    "Verif.IpifMon.read_done",
    "Verif.IpifMon.write_done",
    "Verif.IpifMon.write_read"
   ],
   "note": "Cycles without reset; masked and unaligned accesses raise."
  },
  {
   "property": "C487",
   "status": "partial",
   "theorems": [
    "Verif.IpifMon.ack_partial",
    "Verif.IpifMon.ack_zero_partial",
    "Verif.IpifMon.ack_violated"
   ],
   "note": "Violated: with READ_LATENCY 1 a read just after a read is acknowledged at once without data, as rdack is not cleared while the agent waits. Proved exact without latencies, and in general that a finished operation is acknowledged and that a wrong acknowledge only stays from the operation before."
  },
  {
   "property": "C488",
   "status": "partial",
   "theorems": [
    "Verif.IpifMon.stable_partial",
    "Verif.IpifMon.stable_violated"
   ],
   "note": "Violated: data and byte enables are not compared in the last cycle of a write (the phase was already changed). Proved for all other cycles and signals."
  },
  {
   "property": "C49",
   "status": "proved",
   "theorems": [
    "Verif.Axis.upscale_bytes",
    "Verif.Axis.upscale_word",
    "Verif.Axis.downscale_bytes",
    "Verif.Axis.downscale_defined",
    "Verif.Axis.downscale_no_empty_tail"
   ],
   "note": ""
  },
  {
   "property": "C50",
   "status": "partial",
   "theorems": [
    "Verif.BusMap.remap_violated",
    "Verif.BusMap.remap_normalized_partial",
    "Verif.BusMap.remap_partial",
    "Verif.BusMap.normalize_disjoint",
    "Verif.BusMap.en_exact"
   ],
   "note": "Violated: a region aligned on both sides uses its output offset as an unshifted address prefix (remap_violated). Proved for maps without such a region moved to non-zero offset, for every address."
  },
  {
   "property": "C51",
   "status": "proved",
   "theorems": [
    "Verif.BusMap.slaves_normalized",
    "Verif.BusMap.slaves_collision"
   ],
   "note": ""
  },
  {
   "property": "C52",
   "status": "proved",
   "theorems": [
    "Verif.Groups.groups_components",
    "Verif.Groups.groups_access"
   ],
   "note": ""
  },
  {
   "property": "C53",
   "status": "proved",
   "theorems": [
    "Verif.SimRam.alloc_disjoint",
    "Verif.SimRam.alloc_preserves",
    "Verif.SimRam.alloc_succeeds"
   ],
   "note": ""
  },
  {
   "property": "C54",
   "status": "proved",
   "theorems": [
    "Verif.SimRam.getBits_exact"
   ],
   "note": ""
  },
  {
   "property": "C55",
   "status": "partial",
   "theorems": [
    "Verif.HsFifo.hsFifo_init_partial",
    "Verif.HsFifo.hsFifo_init_broken",
    "Verif.HsFifo.hsFifo_init_full_broken"
   ],
   "note": "proved for len(INIT_DATA) <= DEPTH-2; DEPTH-1 and DEPTH are violated by the code, counterexamples proved"
  },
  {
   "property": "C56",
   "status": "proved",
   "theorems": [
    "Verif.StreamNode.exclusiveGroup_atomic"
   ],
   "note": ""
  },
  {
   "property": "C57",
   "status": "partial",
   "theorems": [
    "Verif.FifoDrop.fifoDrop_discard_without_en",
    "Verif.FifoDrop.fifoDrop_commit_needs_en_partial"
   ],
   "note": "Holds for commit; violated by the code for discard, for every depth (proved negation)."
  },
  {
   "property": "C58",
   "status": "partial",
   "theorems": [
    "Verif.FifoDrop.fifoDrop_commit_while_full_broken",
    "Verif.FifoDrop.fifoDrop_correct_partial"
   ],
   "note": "Violated by the code (proved negation, depth 2); without commits during wait fifoDrop_correct_partial applies."
  },
  {
   "property": "C59",
   "status": "partial",
   "theorems": [
    "Verif.FifoCopy.fifoCopy_no_underflow_partial",
    "Verif.FifoCopy.fifoCopy_copy_of_empty_broken"
   ],
   "note": "Violated for a replay request of an empty frame; proved otherwise."
  },
  {
   "property": "C60",
   "status": "partial",
   "theorems": [
    "Verif.FifoAsync.fifoAsync_depth_partial",
    "Verif.FifoAsync.fifoAsync_depth_one_broken"
   ],
   "note": "Proved for DEPTH=2^k, k>=1; false for DEPTH=1, which the assertions accept."
  },
  {
   "property": "C61",
   "status": "proved",
   "theorems": [
    "Verif.FifoAsync.fifoAsync_read_progress",
    "Verif.FifoAsync.fifoAsync_write_progress"
   ],
   "note": ""
  },
  {
   "property": "C62",
   "status": "partial",
   "theorems": [
    "Verif.Bcd.bcd_to_bin_counter_violated",
    "Verif.Bcd.bcd_to_bin_counter_19",
    "Verif.Bcd.bcd_to_bin_counter_partial"
   ],
   "note": "violated for BCD_DIGITS=1 and 19; holds whenever the result width is not a power of two"
  },
  {
   "property": "C63",
   "status": "proved",
   "theorems": [
    "Verif.Crc.crc_detects_burst",
    "Verif.Crc.crc_finish_injective"
   ],
   "note": ""
  },
  {
   "property": "C64",
   "status": "proved",
   "theorems": [
    "Verif.Crc.crc_frame",
    "Verif.Crc.crc_frame_restart"
   ],
   "note": ""
  },
  {
   "property": "C65",
   "status": "partial",
   "theorems": [
    "Verif.BusMap.optimal_addr_order_violated",
    "Verif.BusMap.optimal_addr_single_violated",
    "Verif.BusMap.optimal_addr_partial"
   ],
   "note": "Violated twice: uses the last listed slave instead of the highest one, and is one bit short if the address of the last word is a power of two. Proved otherwise."
  },
  {
   "property": "C66",
   "status": "proved",
   "theorems": [
    "Verif.SimRam.calloc_roundtrip"
   ],
   "note": ""
  },
  {
   "property": "C67",
   "status": "partial",
   "theorems": [
    "Verif.SimRam.malloc_unaligned_violated",
    "Verif.SimRam.malloc_size_violated",
    "Verif.SimRam.malloc_aligned_partial"
   ],
   "note": "Violated: the exception for a not aligned address is created but not raised, a partial cell is not allocated. Proved for cell multiples."
  },
  {
   "property": "C68",
   "status": "partial",
   "theorems": [
    "Verif.Fifo.fifo_gated_partial",
    "Verif.Fifo.fifo_gated_broken"
   ],
   "note": "Violated: the loop flag is driven by en and not by fifo_write, a write to a full fifo together with a read at the last address leaves the fifo looking full. Proved for histories without a refused write in the cycle of a read."
  },
  {
   "property": "C69",
   "status": "proved",
   "theorems": [
    "Verif.Timers.timers_period",
    "Verif.Timers.timers_free_running",
    "Verif.Timers.timers_independent"
   ],
   "note": "full statement"
  },
  {
   "property": "C70",
   "status": "partial",
   "theorems": [
    "Verif.Timers.timers_tick_in_reset",
    "Verif.Timers.timers_no_tick_in_reset_partial"
   ],
   "note": "False as stated: with periods [2,4] the low-bit-shared timer ticks during reset. Proved for timers with an own counter."
  },
  {
   "property": "C71",
   "status": "proved",
   "theorems": [
    "Verif.Uart.uartTx_ready",
    "Verif.Uart.uartTx_spacing",
    "Verif.Uart.uartTx_frame",
    "Verif.Uart.uartTx_idle_high"
   ],
   "note": "full statement; B is the rounded number of clock cycles per bit"
  },
  {
   "property": "C72",
   "status": "partial",
   "theorems": [
    "Verif.Uart.uartRx_back_to_back_broken",
    "Verif.Uart.uartRx_receives_partial"
   ],
   "note": "False for frames without pause (receiver drifts one cycle per byte). Proved when the line stays high at least one extra clock cycle after each stop bit."
  },
  {
   "property": "C73",
   "status": "partial",
   "theorems": [
    "Verif.Uart.uart_loopback_broken",
    "Verif.Uart.uart_loopback_partial"
   ],
   "note": "False when FREQ/BAUD is not a multiple of OVERSAMPLING (FREQ=15*BAUD, OS=8). Proved for exact ratios."
  },
  {
   "property": "C74",
   "status": "proved",
   "theorems": [
    "Verif.FifoCopy.fifoCopy_gated"
   ],
   "note": "full statement"
  },
  {
   "property": "C75",
   "status": "partial",
   "theorems": [
    "Verif.Cdc.hsCdc_order_partial",
    "Verif.Cdc.hsCdc_backpressure_broken",
    "Verif.Cdc.hsCdc_backpressure_loses"
   ],
   "note": "Violated if the consumer stalls: dout_vld_delayed is set before the data register is loaded, so a stalled consumer gets an undefined word first, and the real word can be lost. Proved for a consumer which is always ready, for every interleaving of the clocks."
  },
  {
   "property": "C76",
   "status": "proved",
   "theorems": [
    "Verif.Cdc.hsCdc_progress",
    "Verif.Cdc.hsCdc_ready_again"
   ],
   "note": "full statement"
  },
  {
   "property": "C77",
   "status": "proved",
   "theorems": [
    "Verif.Cdc.cdc_latency",
    "Verif.Cdc.cdc_monotone"
   ],
   "note": "full statement; a word is sampled as a whole (the documentation excludes multi-bit signals whose bits change independently)"
  },
  {
   "property": "C78",
   "status": "proved",
   "theorems": [
    "Verif.Cdc.pulseGen_no_spurious",
    "Verif.Cdc.pulseGen_counts",
    "Verif.Cdc.pulseGen_exact"
   ],
   "note": "full statement"
  },
  {
   "property": "C79",
   "status": "partial",
   "theorems": [
    "Verif.Cdc.vldCdc_wrong_data",
    "Verif.Cdc.vldCdc_duplicates",
    "Verif.Cdc.vldCdc_same_clock_partial"
   ],
   "note": "Violated: the output data register is enabled two cycles after the word was in the input register, so it takes a later word; with a faster output clock a word comes out several times. Proved: with equal clocks a word held for two more cycles is transferred."
  },
  {
   "property": "C80",
   "status": "partial",
   "theorems": [
    "Verif.PseudoLru.pseudoLru_index_partial",
    "Verif.PseudoLru.pseudoLru_use_ignored",
    "Verif.PseudoLru.pseudoLru_used_replaced",
    "Verif.PseudoLru.pseudoLru_ways_never_replaced"
   ],
   "note": "mark_use_many never reads its argument (the last level of lru nodes is treated as the leaves): the new state is independent of the used ways, the used way may be the next victim and with 4 ways two ways are never victims. Proved positively: the index is the number of a way."
  },
  {
   "property": "C81",
   "status": "partial",
   "theorems": [
    "Verif.PseudoLru.pseudoLru_half_partial",
    "Verif.PseudoLru.pseudoLru_table_inverted",
    "Verif.PseudoLru.pseudoLru_table_violated",
    "Verif.PseudoLru.pseudoLru_eight_ways_refused"
   ],
   "note": "The last level bit is inverted, so get_lru is the documented line with the last bit flipped, for each state. The assertion of __init__ refuses each 2^k ways with k >= 3. Proved positively: the documented half of the lines is selected."
  },
  {
   "property": "C82",
   "status": "proved",
   "theorems": [
    "Verif.FifoOoo.fifoOoo_no_reuse",
    "Verif.FifoOoo.fifoOoo_order"
   ],
   "note": ""
  },
  {
   "property": "C83",
   "status": "proved",
   "theorems": [
    "Verif.FifoOoo.fifoOoo_lock"
   ],
   "note": ""
  },
  {
   "property": "C84",
   "status": "partial",
   "theorems": [
    "Verif.FifoOoo.fifoOoo_lookup_partial",
    "Verif.FifoOoo.fifoOoo_lookup_misses",
    "Verif.FifoOoo.fifoOoo_lookup_locked",
    "Verif.FifoOoo.fifoOoo_never_merge"
   ],
   "note": "The lookup result is masked with item_write_lock (not its negation): only items which can not be updated any more are reported, waiting items are missed; the AxiWriteAggregator then masks with the negation so no found item is ever merged. Proved positively: items being read are reported exactly by their key."
  },
  {
   "property": "C85",
   "status": "partial",
   "theorems": [
    "Verif.FifoOoo.fifoOoo_width_partial",
    "Verif.FifoOoo.fifoOoo_width_wrong"
   ],
   "note": "log2ceil(ITEMS - 1) differs from log2ceil(ITEMS) exactly for ITEMS = 2^k + 1 (k >= 1); equal for all other sizes."
  },
  {
   "property": "C86",
   "status": "partial",
   "theorems": [
    "Verif.AxiWDispatch.wdispatch_stream",
    "Verif.AxiWDispatch.wdispatch_burst_partial",
    "Verif.AxiWDispatch.wdispatch_burst_wrong"
   ],
   "note": "The stream theorem holds for each size with bursts of 2^log2ceil(N) words; this equals aw.len + 1 exactly if the number N of bus words in a cache line is a power of two, otherwise more words than announced are sent."
  },
  {
   "property": "C87",
   "status": "partial",
   "theorems": [
    "Verif.AxiWDispatch.wdispatch_offers_partial",
    "Verif.AxiWDispatch.wdispatch_not_offered",
    "Verif.AxiWDispatch.wdispatch_deadlock"
   ],
   "note": "bus_ack requires aw.ready before the first word is read and before aw.valid is raised: with a slave which waits for aw.valid nothing is ever offered (all sizes, all other inputs). Positive: with ready set the address is offered in the next cycle."
  },
  {
   "property": "C88",
   "status": "proved",
   "theorems": [
    "Verif.Mi32.ToAxi.toAxi_writes"
   ],
   "note": ""
  },
  {
   "property": "C89",
   "status": "partial",
   "theorems": [
    "Verif.Mi32.ToAxi.toAxi_reads_partial",
    "Verif.Mi32.ToAxi.toAxi_reads_not_lost",
    "Verif.Mi32.ToAxi.toAxi_read_duplicated"
   ],
   "note": "ar.valid does not wait for the write data as ardy does, a read behind stalled write data is sent again each cycle; exact if no write data wait when a read is requested, never lost"
  },
  {
   "property": "C90",
   "status": "partial",
   "theorems": [
    "Verif.Mi32.FromAxi.fromAxi_gentle_partial",
    "Verif.Mi32.FromAxi.fromAxi_read_replaced",
    "Verif.Mi32.FromAxi.fromAxi_read_lost"
   ],
   "note": "the address register is overwritten by a not yet accepted request while the slave is busy, and a request accepted together with an answer is dropped; in order in an environment without such overlaps"
  },
  {
   "property": "C91",
   "status": "partial",
   "theorems": [
    "Verif.Mi32.FromAxi.fromAxi_gentle_partial",
    "Verif.Mi32.FromAxi.fromAxi_write_lost"
   ],
   "note": "if the data come after the address the response is sent and the write is dropped; one response per write in the gentle environment"
  },
  {
   "property": "C92",
   "status": "partial",
   "theorems": [
    "Verif.Mi32.FromAxi.fromAxi_gentle_partial",
    "Verif.Mi32.FromAxi.fromAxi_answer_lost"
   ],
   "note": "the second answer overwrites the first one which was not taken; in order if the master is always ready"
  },
  {
   "property": "C93",
   "status": "partial",
   "theorems": [
    "Verif.Mi32.Endpoint.mi32Endpoint_answer_partial",
    "Verif.Mi32.Endpoint.mi32Endpoint_not_answered"
   ],
   "note": "a read outside of the mapped range is accepted but never answered"
  },
  {
   "property": "C94",
   "status": "proved",
   "theorems": [
    "Verif.AddrDecode.addr_step_translation",
    "Verif.AddrDecode.addr_step_fits"
   ],
   "note": ""
  },
  {
   "property": "C95",
   "status": "proved",
   "theorems": [
    "Verif.AddrDecode.endpoint_decode"
   ],
   "note": ""
  },
  {
   "property": "C96",
   "status": "proved",
   "theorems": [
    "Verif.LiteEndpoint.liteEndpoint_reads",
    "Verif.LiteEndpoint.liteEndpoint_writes",
    "Verif.LiteEndpoint.liteEndpoint_mem"
   ],
   "note": ""
  },
  {
   "property": "C97",
   "status": "partial",
   "theorems": [
    "Verif.LiteEndpoint.liteEndpoint_read_partial",
    "Verif.LiteEndpoint.liteEndpoint_read_wrong"
   ],
   "note": "a write to the same memory in the cycle after the request replaces the data of the read by the output of the memory for the written item; correct if the memory is not written between request and response"
  },
  {
   "property": "C98",
   "status": "partial",
   "theorems": [
    "Verif.LiteEndpoint.liteEndpoint_read_partial",
    "Verif.LiteEndpoint.liteEndpoint_unstable",
    "Verif.LiteEndpoint.liteEndpoint_reg_unstable"
   ],
   "note": "the read data register follows the memory output and directly mapped words are not registered; stable for memories which are not written meanwhile"
  },
  {
   "property": "C99",
   "status": "proved",
   "theorems": [
    "Verif.AxiToLite.Split.axiToLite_split"
   ],
   "note": ""
  }
 ]
}