.lake/
lean/lake-manifest.json
*.olean
