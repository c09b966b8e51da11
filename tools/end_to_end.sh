#!/bin/sh
# Runs the model on the project's end-to-end tests (tests/end_to_end.rs) and compares the SHA-512 of the output.
here=$(cd "$(dirname "$0")" && pwd)
tmp=$(mktemp -d)
python3 "$here/decode_images.py" "$tmp"
sed "s#@TMP@#$tmp#" "$here/end_to_end.lean.txt" > "$tmp/e2e.lean"
cd "$here/../lean" && lake build Verif.Model.Command Verif.Spec.Lexing > /dev/null && lake env lean "$tmp/e2e.lean"
want=$(grep -o '[0-9A-F]\{128\}' /repo/tests/end_to_end.rs | sort -u)
for f in basic.s basic-quoted.s; do
  got=$(sha512sum "$tmp/$f.vms" | cut -d' ' -f1 | tr a-f A-F)
  if [ "$got" = "$want" ]; then echo "$f: same"; else echo "$f: DIFFERENT"; fi
done
rm -r "$tmp"
