Comparison of the decompressor in Verif/Model/Inflate.lean with Python's zlib module (not of gitdb, which is not run).

  python3 gen.py SEED N                      writes cases.txt and expect.txt (calls of decompressobj().decompress on valid and damaged streams)
  (cd lean; lake env lean --run run.lean.txt cases.txt) > got.txt
  python3 cmp.py                             prints differences

short_search.py finds objects whose first 8192 compressed bytes (compressobj(1)) yield exactly 8192 bytes; short.lean.txt evaluates the model
of DecompressMemMapReader on streams ("label|hex" per line).  craft.py makes the stream of Verif/Proofs/RealZip.lean.
