Formal model of pyqlaw in Lean 4. See DESIGN.md, properties.jsonl, MANIFEST.json and lean/.
